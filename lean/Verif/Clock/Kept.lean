import Verif.Clock.Begin

/-! # Property C88: when animations begin and end (what is written) -/

namespace Verif.Clock

open Verif.Parse Verif.Number

variable {p q : Parser} {pre r t x : List Char} {v : ℚ}

/-! ## Names -/

theorem escape_plain {l : List Char} (h : '-' ∉ l) : escape l = l := by
  induction l with
  | nil => rfl
  | cons c l ih =>
    simp only [List.mem_cons, not_or] at h
    have : (c == '-') = false := by simp [Ne.symm h.1]
    rw [escape, this, ih h.2]
    rfl

theorem name_plain {l : List Char} (h : Name l) (hd : '-' ∉ l) : ∀ c ∈ l, plainChar c = true := by
  intro c hc
  have := h.2 c hc
  rcases Bool.eq_false_or_eq_true (plainChar c) with h' | h'
  · exact h'
  · rw [h', Bool.false_or, beq_iff_eq] at this
    exact absurd (this ▸ hc) hd

theorem event_plain {l : List Char} (h : EventName l) : ∀ c ∈ l, plainChar c = true := fun c hc => by
  simp [plainChar, h.2 c hc]

theorem word_id {id ev : List Char} (h1 : Name id) (hd : '-' ∉ id) (h2 : ∀ c ∈ ev, plainChar c = true) : Word (id ++ '.' :: ev) := by
  obtain ⟨⟨c, u, rfl, hc⟩, h1'⟩ := h1
  refine ⟨⟨c, u ++ '.' :: ev, rfl, hc⟩, ?_⟩
  intro x hx
  rcases List.mem_append.mp hx with hx | hx
  · have := plain_facts (name_plain ⟨⟨c, u, rfl, hc⟩, h1'⟩ hd x hx)
    exact ⟨this.1, this.2.1⟩
  · rcases List.mem_cons.mp hx with rfl | hx
    · decide
    · have := plain_facts (h2 x hx)
      exact ⟨this.1, this.2.1⟩

theorem word_event {ev : List Char} (h : EventName ev) : Word ev := by
  obtain ⟨hne, ha⟩ := h
  cases ev with
  | nil => exact absurd rfl hne
  | cons c u =>
    refine ⟨⟨c, u, rfl, by simp [ha c (by simp)]⟩, ?_⟩
    intro x hx
    have := plain_facts (event_plain ⟨hne, ha⟩ x hx)
    exact ⟨this.1, this.2.1⟩

theorem plain_dot {l : List Char} (h : ∀ c ∈ l, plainChar c = true) : '.' ∉ l := fun hc => (plain_facts (h _ hc)).2.2.2.1 rfl

theorem plain_dash {l : List Char} (h : ∀ c ∈ l, plainChar c = true) : '-' ∉ l := fun hc => by
  have := (plain_facts (h _ hc)).2.1
  simp [isSign] at this

theorem plain_colon {l : List Char} (h : ∀ c ∈ l, plainChar c = true) : ':' ∉ l := fun hc => (plain_facts (h _ hc)).2.2.2.2.1 rfl

theorem plain_last {l : List Char} (h : ∀ c ∈ l, plainChar c = true) : l.getLast? ≠ some '.' := fun hc =>
  plain_dot h (List.mem_of_getLast? hc)

theorem plain_last' {a l : List Char} (hne : l ≠ []) (h : ∀ c ∈ l, plainChar c = true) : (a ++ l).getLast? ≠ some '.' :=
  last_append hne (plain_last h)

/-! ## Whole values -/

/-- What is read up to the end is the value. -/
theorem done_new {α : Type} {T : Parser → Res α} {a : α} {c : Char} {u : List Char} (hc : isWhitespace c = false)
    (e : ∃ q, T (Parser.new (c :: u)) = .ok a q ∧ At q (c :: u) []) : ∃ q, ListOf.parseString T (c :: u) = .ok a q :=
  done_at hc fun p hp => by
    have : p = Parser.new (c :: u) := At.same (pre := []) (rest := c :: u) ⟨rfl, rfl⟩ hp
    rw [this]
    exact e

/-- What is left over is an error. -/
theorem left_new {α : Type} {T : Parser → Res α} {a : α} {c : Char} {u : List Char} (hc : isWhitespace c = false)
    (e : ∃ q l d r, T (Parser.new (c :: u)) = .ok a q ∧ At q l (d :: r) ∧ isWhitespace d = false) :
    ∃ q, ListOf.parseString T (c :: u) = .err q := by
  have h : At (Parser.new (c :: u)) [] (c :: u) := ⟨rfl, rfl⟩
  obtain ⟨p0, e0, h0⟩ := Verif.Number.At.skip (t := []) h (f := isWhitespace) (by simp)
    (by intro x w e; simp only [List.cons.injEq] at e; rw [← e.1]; exact hc)
  have : p0 = Parser.new (c :: u) := At.same (pre := []) (rest := c :: u) ⟨rfl, rfl⟩ (by simpa using h0)
  subst this
  obtain ⟨q, l, d, r, e1, h1, hd⟩ := e
  obtain ⟨q1, e2, h2⟩ := Verif.Number.At.skip (t := []) h1 (f := isWhitespace) (by simp)
    (by intro x w e; simp only [List.cons.injEq] at e; rw [← e.1]; exact hd)
  refine ⟨q1, ?_⟩
  rw [ListOf.parseString, Parser.skipWhitespace, e0]
  simp only [Res.bind, e1, Parser.skipWhitespace, e2, Parser.expectDone]
  rw [if_pos]
  rw [h2.1, h2.2, List.append_nil, width_append]
  have : 0 < width (d :: r) := by
    have := d.utf8Size_pos
    simp only [width, List.map_cons, List.sum_cons]
    omega
  omega

/-- An error stays an error. -/
theorem err_new {α : Type} {T : Parser → Res α} {c : Char} {u : List Char} (hc : isWhitespace c = false)
    (e : ∃ q, T (Parser.new (c :: u)) = .err q) : ∃ q, ListOf.parseString T (c :: u) = .err q := by
  have h : At (Parser.new (c :: u)) [] (c :: u) := ⟨rfl, rfl⟩
  obtain ⟨p0, e0, h0⟩ := Verif.Number.At.skip (t := []) h (f := isWhitespace) (by simp)
    (by intro x w e; simp only [List.cons.injEq] at e; rw [← e.1]; exact hc)
  have : p0 = Parser.new (c :: u) := At.same (pre := []) (rest := c :: u) ⟨rfl, rfl⟩ (by simpa using h0)
  subst this
  obtain ⟨q, e1⟩ := e
  refine ⟨q, ?_⟩
  rw [ListOf.parseString, Parser.skipWhitespace, e0]
  simp only [Res.bind, e1]

theorem brief_suffix {a b : List Char} (h : Brief (a ++ b)) : Brief b := fun d hd hi => h d hd (hi.trans ⟨a, [], by simp⟩)

theorem word_white {l : List Char} (h : Word l) (o : List Char) : ∃ c u, l ++ o = c :: u ∧ isWhitespace c = false := by
  obtain ⟨c, u, rfl, hc⟩ := h.start
  exact ⟨c, u ++ o, rfl, (plain_facts (start_plain hc)).2.2.1⟩

/-- A name with its offset is read as a whole. -/
theorem named_read {l o : List Char} (h : Word l) (ho : Wait Clock o v) (hb : Brief (l ++ o)) (hl : l.getLast? ≠ some '.')
    (hi : l ≠ "indefinite".toList) (hr : (nameParts l).2 ≠ "repeat".toList) :
    ∃ oc, GotWait o v oc ∧ ∃ q, ListOf.parseString BeginEnd.parse (l ++ o) =
      .ok (match (nameParts l).1 with
        | some i => if (nameParts l).2 = "begin".toList || (nameParts l).2 = "end".toList
            then .sync i ((nameParts l).2 == "begin".toList) oc else .event (some i) (nameParts l).2 oc
        | none => .event none (nameParts l).2 oc) q := by
  obtain ⟨back, hback⟩ := wait_behind ho
  have h0 : At (Parser.new (l ++ o)) [] (l ++ o) := ⟨rfl, rfl⟩
  have hk : l ++ back ≠ "indefinite".toList := by
    intro e
    cases hback with
    | none => exact hi (by simpa using e)
    | other c u _ _ _ => exact hi (by simpa using e)
    | dash u _ =>
      have : '-' ∈ "indefinite".toList := by rw [← e]; simp
      revert this
      decide
  have hbeg := begin_word h hback h0 (wait_last ho hl) hk
  obtain ⟨q1, e1, h1, _⟩ := events_at h hback h0
  obtain ⟨oc, q2, e2, h2, hg⟩ := wait_read ho (brief_suffix hb) h1
  refine ⟨oc, hg, ?_⟩
  obtain ⟨c, u, hcu, hc⟩ := word_white h o
  rw [hcu]
  refine done_new hc ⟨q2, ?_, by rw [← hcu]; simpa using h2⟩
  rw [← hcu, hbeg, e1, fromName, if_neg hr, named, ← bind_bind, e2]
  simp only [Res.bind]
  cases (nameParts l).1 with
  | none => rfl
  | some i =>
    simp only
    split <;> rfl

/-! ## Offsets -/

theorem digit_not_start : ∀ n < 58, isNameStartChar (Char.ofNat n) = true → (Char.ofNat n).isDigit = false := by decide +kernel

theorem digit_start {c : Char} (h : c.isDigit = true) : isNameStartChar c = false := by
  have hr : c.toNat < 58 := by have := digit_range h; omega
  have := digit_not_start c.toNat hr
  rw [Char.ofNat_toNat] at this
  rcases Bool.eq_false_or_eq_true (isNameStartChar c) with h' | h'
  · rw [this h'] at h
    simp at h
  · exact h'

theorem offset_shape (h : Offset Clock x v) : ∃ g t v' minus, x = g ++ t ∧ SignText g minus ∧ Clock t v' ∧
    v = (if minus then -v' else v') ∧ (minus = true ↔ '-' ∈ x) ∧ (':' ∈ t ↔ ':' ∈ x) := by
  have hm : ∀ {t : List Char} {v : ℚ}, Clock t v → '-' ∉ t := fun h hc => by
    have := clock_signless h _ hc
    simp [isSign] at this
  have hw : ∀ {w : List Char}, White w → '-' ∉ w ∧ ':' ∉ w := by
    intro w hw
    constructor <;> intro h <;> rcases hw _ h with h | h | h | h <;> simp at h
  cases h with
  | bare h => exact ⟨[], x, v, false, rfl, .inl ⟨rfl, rfl⟩, h, by simp, by simp [hm h], Iff.rfl⟩
  | signed h =>
    cases h with
    | plus w _ _ h1 h2 =>
      exact ⟨'+' :: w, _, v, false, rfl, .inr ⟨'+', w, rfl, .inl rfl, h1, rfl⟩, h2, by simp, by simp [hm h2, hw h1], by simp [hw h1]⟩
    | minus w t v' h1 h2 =>
      exact ⟨'-' :: w, t, v', true, rfl, .inr ⟨'-', w, rfl, .inr rfl, h1, rfl⟩, h2, by simp, by simp, by simp [hw h1]⟩

theorem offset_read (h : Offset Clock x v) (hb : Brief x) : ∃ t v' minus c q, ListOf.parseString BeginEnd.parse x = .ok (.offset c) q ∧
    Got t v' minus c ∧ Clock t v' ∧ v = (if minus then -v' else v') ∧ (':' ∈ t ↔ ':' ∈ x) := by
  obtain ⟨g, t, v', minus, rfl, hg, hc, hv, _, hcol⟩ := offset_shape h
  obtain ⟨c0, u0, ht, hd0⟩ := clock_head hc
  have hf0 := digit_facts hd0
  have h0 : At (Parser.new (g ++ t)) [] ([] ++ (g ++ t)) := ⟨rfl, rfl⟩
  obtain ⟨c, q0, e0, h1, hgot⟩ := clock_read (w := []) hc (brief_suffix hb) (by intro x hx; simp at hx) hg h0
  obtain ⟨x, y, hxy, hx, hs, h8⟩ : ∃ x y, g ++ t = x :: y ∧ isWhitespace x = false ∧ isNameStartChar x = false ∧ x.utf8Size = 1 := by
    rcases hg with ⟨rfl, _⟩ | ⟨c, w', rfl, h2, _⟩
    · refine ⟨c0, u0, ht, hf0.1, ?_, hf0.2.2.2.2.2.2.2.2.2⟩
      exact digit_start hd0
    · exact ⟨c, w' ++ t, rfl, by rcases h2 with rfl | rfl <;> decide, by rcases h2 with rfl | rfl <;> decide,
        by rcases h2 with rfl | rfl <;> decide⟩
  have hq : ∃ q, ListOf.parseString BeginEnd.parse (g ++ t) = .ok (.offset c) q := by
    rw [hxy]
    refine done_new hx ⟨q0, ?_, by rw [← hxy]; simpa using h1⟩
    rw [← hxy]
    have h0' : At (Parser.new (g ++ t)) [] (x :: y) := by rw [← hxy]; exact ⟨rfl, rfl⟩
    obtain ⟨q, hi, hq⟩ := expectIdent_spec h0' (ascii_head_cons.mpr h8)
    simp only [hs, Bool.false_eq_true, if_false] at hq
    have e1 : (Parser.new (g ++ t)).tryParse (fun p => (p.expectIdentMatching "indefinite".toList).bind fun _ p => Res.ok BeginEnd.indefinite p) =
        .err (Parser.new (g ++ t)) := by
      refine tryParse_err (q := q) ?_ hi
      rw [Parser.expectIdentMatching, hq.1]
      rfl
    have e2 : (Parser.new (g ++ t)).tryParse (fun p => (ClockValue.parse p).bind fun c p => Res.ok (BeginEnd.offset c) p) = .ok (.offset c) q0 := by
      refine tryParse_ok ?_
      rw [e0]
      rfl
    simp only [BeginEnd.parse, e1, orElse, e2]
  obtain ⟨q, hq⟩ := hq
  exact ⟨t, v', minus, c, q, hq, hgot, hc, hv, hcol⟩

/-! ## C88 -/

/-- Only offsets that follow a name lose the sign of zero. -/
def Trigger.named : Trigger → Prop
  | .sync _ _ _ | .event _ _ _ => True
  | _ => False

theorem sync_text_iff {id o : List Char} {begin : Bool} (hn : Name id) (hd : '-' ∉ id) :
    Begin Loose (id ++ '.' :: ((if begin then "begin".toList else "end".toList) ++ o)) (.sync id begin v) ↔ Wait Loose o v := by
  constructor
  · intro h
    generalize hx : id ++ '.' :: ((if begin then "begin".toList else "end".toList) ++ o) = x at h
    generalize hτ : Trigger.sync id begin v = τ at h
    cases h with
    | sync id' begin' o' v' _ ho' =>
      simp only [Trigger.sync.injEq] at hτ
      obtain ⟨rfl, rfl, rfl⟩ := hτ
      rw [escape_plain hd] at hx
      have hx := List.append_cancel_left hx
      have hx := List.append_cancel_left (List.cons.inj hx).2
      rw [hx]
      exact ho'
    | offset _ _ _ => simp at hτ
    | event _ _ _ _ _ _ _ _ _ _ => simp at hτ
    | anyEvent _ _ _ _ _ _ _ => simp at hτ
    | indefinite => simp at hτ
  · intro h
    have := Begin.sync id begin _ v hn h
    rw [escape_plain hd] at this
    exact this

theorem event_text_iff {id ev o : List Char} (hn : Name id) (hd : '-' ∉ id) (hev : EventName ev) (h1 : ev ≠ "begin".toList)
    (h2 : ev ≠ "end".toList) (h3 : ev ≠ "repeat".toList) :
    Begin Loose (id ++ '.' :: (ev ++ o)) (.event (some id) ev v) ↔ Wait Loose o v := by
  constructor
  · intro h
    generalize hx : id ++ '.' :: (ev ++ o) = x at h
    generalize hτ : Trigger.event (some id) ev v = τ at h
    cases h with
    | event id' ev' o' v' _ _ _ _ _ ho' =>
      simp only [Trigger.event.injEq, Option.some.injEq] at hτ
      obtain ⟨rfl, rfl, rfl⟩ := hτ
      rw [escape_plain hd] at hx
      have hx := List.append_cancel_left hx
      have hx := List.append_cancel_left (List.cons.inj hx).2
      rw [hx]
      exact ho'
    | offset _ _ _ => simp at hτ
    | sync _ _ _ _ _ _ => simp at hτ
    | anyEvent _ _ _ _ _ _ _ => simp at hτ
    | indefinite => simp at hτ
  · intro h
    have := Begin.event id ev _ v hn hev h1 h2 h3 h
    rw [escape_plain hd] at this
    exact this

theorem any_text_iff {ev o : List Char} (hev : EventName ev) (h1 : ev ≠ "indefinite".toList) (h3 : ev ≠ "repeat".toList) :
    Begin Loose (ev ++ o) (.event none ev v) ↔ Wait Loose o v := by
  constructor
  · intro h
    generalize hx : ev ++ o = x at h
    generalize hτ : Trigger.event none ev v = τ at h
    cases h with
    | anyEvent ev' o' v' _ _ _ ho' =>
      simp only [Trigger.event.injEq, true_and] at hτ
      obtain ⟨rfl, rfl⟩ := hτ
      rw [List.append_cancel_left hx]
      exact ho'
    | offset _ _ _ => simp at hτ
    | sync _ _ _ _ _ _ => simp at hτ
    | event _ _ _ _ _ _ _ _ _ _ => simp at hτ
    | indefinite => simp at hτ
  · exact Begin.anyEvent ev _ v hev h1 h3

theorem offset_text_iff {x : List Char} : Begin Loose x (.offset v) ↔ Offset Loose x v := by
  constructor
  · intro h
    generalize hτ : Trigger.offset v = τ at h
    cases h with
    | offset _ v' h =>
      simp only [Trigger.offset.injEq] at hτ
      rw [hτ]
      exact h
    | anyEvent _ _ _ _ _ _ _ => simp at hτ
    | sync _ _ _ _ _ _ => simp at hτ
    | event _ _ _ _ _ _ _ _ _ _ => simp at hτ
    | indefinite => simp at hτ
  · exact .offset _ _

theorem offset_case {x z : List Char} (h : Offset Clock x v) (hb : Brief x) (hz : z = "0".toList ∨ z = "-0".toList) :
    ∃ b q, ListOf.parseString BeginEnd.parse (x) = .ok b q ∧
      (Begin Loose (b.text z) (.offset v) ↔ ¬ (Trigger.wait (.offset v) < 0 ∧ ':' ∈ x) ∧
        ¬ (z = "0".toList ∧ Trigger.named (.offset v) ∧ Trigger.wait (.offset v) = 0 ∧ '-' ∈ x ∧ ':' ∉ x)) := by
  obtain ⟨t, v', minus, c, q, e, hgot, hc, rfl, hcol⟩ := offset_read h hb
  refine ⟨_, q, e, ?_⟩
  have key := offset_got_iff hz hc hgot
  have h0 := clock_nonneg hc
  have e1 : Begin Loose ((BeginEnd.offset c).text z) (.offset (if minus then -v' else v')) ↔
      Offset Loose (c.text z) (if minus then -v' else v') := offset_text_iff
  rw [e1, key, hcol]
  simp only [Trigger.named, Trigger.wait, false_and, and_false, not_false_eq_true, and_true]
  cases minus with
  | false => simp [not_lt.mpr h0]
  | true =>
    simp only [true_and, if_true, Left.neg_neg_iff]
    have : v' ≠ 0 ↔ 0 < v' := ⟨fun h => lt_of_le_of_ne h0 (Ne.symm h), fun h => ne_of_gt h⟩
    rw [this, And.comm]

theorem sync_case {id o z : List Char} {begin : Bool} (hn : Name id) (ho : Wait Clock o v) (hb : Brief (escape id ++ '.' :: ((if begin then "begin".toList else "end".toList) ++ o))) (hd : '-' ∉ id) (hz : z = "0".toList ∨ z = "-0".toList) :
    ∃ b q, ListOf.parseString BeginEnd.parse ((escape id ++ '.' :: ((if begin then "begin".toList else "end".toList) ++ o))) = .ok b q ∧
      (Begin Loose (b.text z) (.sync id begin v) ↔ ¬ (Trigger.wait (.sync id begin v) < 0 ∧ ':' ∈ (escape id ++ '.' :: ((if begin then "begin".toList else "end".toList) ++ o))) ∧
        ¬ (z = "0".toList ∧ Trigger.named (.sync id begin v) ∧ Trigger.wait (.sync id begin v) = 0 ∧ '-' ∈ (escape id ++ '.' :: ((if begin then "begin".toList else "end".toList) ++ o)) ∧ ':' ∉ (escape id ++ '.' :: ((if begin then "begin".toList else "end".toList) ++ o)))) := by
  rw [escape_plain hd] at hb ⊢
  have hk : ∀ c ∈ (if begin then "begin".toList else "end".toList), plainChar c = true := by cases begin <;> decide
  have hkne : (if begin then "begin".toList else "end".toList) ≠ [] := by cases begin <;> decide
  have hparts := parts_dot (id := id) (plain_dot hk)
  have e0 : id ++ '.' :: ((if begin then "begin".toList else "end".toList) ++ o) =
    (id ++ '.' :: (if begin then "begin".toList else "end".toList)) ++ o := by simp
  have hdots : '.' ∈ id ++ '.' :: (if begin then "begin".toList else "end".toList) := by simp
  obtain ⟨oc, hg, q, e⟩ := named_read (word_id hn hd hk) ho (by rw [← e0]; exact hb)
    (by rw [show id ++ '.' :: (if begin then "begin".toList else "end".toList) = (id ++ ['.']) ++ (if begin then "begin".toList else "end".toList) by simp]
        exact plain_last' hkne hk)
    (by intro e; rw [e] at hdots; revert hdots; decide)
    (by rw [hparts]; clear hparts e0 hdots hkne hk; cases begin <;> simp)
  rw [hparts] at e
  have hend : ((if begin then "begin".toList else "end".toList) = "begin".toList || (if begin then "begin".toList else "end".toList) = "end".toList) = true := by
    cases begin <;> decide
  have hbeg : ((if begin then "begin".toList else "end".toList) == "begin".toList) = begin := by cases begin <;> decide
  simp only [hend, if_true, hbeg] at e
  refine ⟨_, q, by rw [e0]; exact e, ?_⟩
  have e1 : Begin Loose ((BeginEnd.sync id begin oc).text z) (.sync id begin v) ↔ Wait Loose (offsetText z oc) v := sync_text_iff hn hd
  rw [e1, wait_kept_iff hg hz]
  have hc1 := plain_colon (name_plain hn hd)
  have hc2 := plain_colon hk
  have hd2 := plain_dash hk
  simp only [Trigger.named, Trigger.wait, true_and, List.mem_append, List.mem_cons, hc1, hc2, hd, hd2, false_or]
  simp

theorem event_case {id ev o z : List Char} (hn : Name id) (hev : EventName ev) (hne1 : ev ≠ "begin".toList) (hne2 : ev ≠ "end".toList)
    (hne3 : ev ≠ "repeat".toList) (ho : Wait Clock o v) (hb : Brief (escape id ++ '.' :: (ev ++ o))) (hd : '-' ∉ id) (hz : z = "0".toList ∨ z = "-0".toList) :
    ∃ b q, ListOf.parseString BeginEnd.parse ((escape id ++ '.' :: (ev ++ o))) = .ok b q ∧
      (Begin Loose (b.text z) (.event (some id) ev v) ↔ ¬ (Trigger.wait (.event (some id) ev v) < 0 ∧ ':' ∈ (escape id ++ '.' :: (ev ++ o))) ∧
        ¬ (z = "0".toList ∧ Trigger.named (.event (some id) ev v) ∧ Trigger.wait (.event (some id) ev v) = 0 ∧ '-' ∈ (escape id ++ '.' :: (ev ++ o)) ∧ ':' ∉ (escape id ++ '.' :: (ev ++ o)))) := by
  rw [escape_plain hd] at hb ⊢
  have hk := event_plain hev
  have hparts := parts_dot (id := id) (plain_dot hk)
  have e0 : id ++ '.' :: (ev ++ o) = (id ++ '.' :: ev) ++ o := by simp
  have hdots : '.' ∈ id ++ '.' :: ev := by simp
  obtain ⟨oc, hg, q, e⟩ := named_read (word_id hn hd hk) ho (by rw [← e0]; exact hb)
    (by rw [show id ++ '.' :: ev = (id ++ ['.']) ++ ev by simp]; exact plain_last' hev.1 hk)
    (by intro e; rw [e] at hdots; revert hdots; decide)
    (by rw [hparts]; exact hne3)
  rw [hparts] at e
  have hend : (ev = "begin".toList || ev = "end".toList) = false := by rw [decide_eq_false hne1, decide_eq_false hne2]; rfl
  simp only [hend, Bool.false_eq_true, if_false] at e
  refine ⟨_, q, by rw [e0]; exact e, ?_⟩
  have e1 : (BeginEnd.event (some id) ev oc).text z = id ++ '.' :: (ev ++ offsetText z oc) := by
    show (id ++ ['.']) ++ (ev ++ offsetText z oc) = _
    rw [List.append_assoc, List.singleton_append]
  have e2 := event_text_iff (v := v) (o := offsetText z oc) hn hd hev hne1 hne2 hne3
  rw [e1, e2, wait_kept_iff hg hz]
  have hc1 := plain_colon (name_plain hn hd)
  have hc2 := plain_colon hk
  have hd2 := plain_dash hk
  simp only [Trigger.named, Trigger.wait, true_and, List.mem_append, List.mem_cons, hc1, hc2, hd, hd2, false_or]
  simp

theorem any_case {ev o z : List Char} (hev : EventName ev) (hne1 : ev ≠ "indefinite".toList) (hne2 : ev ≠ "repeat".toList) (ho : Wait Clock o v)
    (hb : Brief (ev ++ o)) (hz : z = "0".toList ∨ z = "-0".toList) :
    ∃ b q, ListOf.parseString BeginEnd.parse ((ev ++ o)) = .ok b q ∧
      (Begin Loose (b.text z) (.event none ev v) ↔ ¬ (Trigger.wait (.event none ev v) < 0 ∧ ':' ∈ (ev ++ o)) ∧
        ¬ (z = "0".toList ∧ Trigger.named (.event none ev v) ∧ Trigger.wait (.event none ev v) = 0 ∧ '-' ∈ (ev ++ o) ∧ ':' ∉ (ev ++ o))) := by
  have hk := event_plain hev
  have hparts := parts_plain (plain_dot hk)
  obtain ⟨oc, hg, q, e⟩ := named_read (word_event hev) ho hb (plain_last hk) hne1 (by rw [hparts]; exact hne2)
  rw [hparts] at e
  simp only at e
  refine ⟨_, q, e, ?_⟩
  have e1 : (BeginEnd.event none ev oc).text z = ev ++ offsetText z oc := rfl
  have e2 := any_text_iff (v := v) (o := offsetText z oc) hev hne1 hne2
  rw [e1, e2, wait_kept_iff hg hz]
  have hc2 := plain_colon hk
  have hd2 := plain_dash hk
  simp only [Trigger.named, Trigger.wait, true_and, List.mem_append, hc2, hd2, false_or]

/-- **C88 (what is written)** A begin value of the grammar whose element has no `-` in its name is read, and what is written
for it means the same if and only if it does not wait for a negative time with a colon, and, where zero is written without a
sign, not for a negative zero behind a name. -/
theorem begin_kept_iff {x z : List Char} {τ : Trigger} (h : Begin Clock x τ) (hb : Brief x) (hid : '-' ∉ τ.id)
    (hz : z = "0".toList ∨ z = "-0".toList) :
    ∃ b q, ListOf.parseString BeginEnd.parse x = .ok b q ∧
      (Begin Loose (b.text z) τ ↔ ¬ (τ.wait < 0 ∧ ':' ∈ x) ∧
        ¬ (z = "0".toList ∧ τ.named ∧ τ.wait = 0 ∧ '-' ∈ x ∧ ':' ∉ x)) := by
  cases h with
  | offset _ _ h => exact offset_case h hb hz
  | sync id begin o v hn ho => exact sync_case hn ho hb hid hz
  | event id ev o v hn hev h1 h2 h3 ho => exact event_case hn hev h1 h2 h3 ho hb hid hz
  | anyEvent ev o v hev h1 h2 ho => exact any_case hev h1 h2 ho hb hz
  | indefinite =>
    refine ⟨.indefinite, ⟨"indefinite".toList, 10⟩, by decide +kernel, ?_⟩
    simp only [Trigger.named, Trigger.wait, lt_self_iff_false, false_and, and_false, not_false_eq_true, and_self, iff_true]
    exact .indefinite

/-! ## Names with a minus sign -/

/-- What is behind a name that is no offset is left over. -/
theorem named_left {l back o : List Char} {c : Char} (h : Word l) (hdot : '.' ∉ l) (hb : Behind back (c :: o)) (hl : (l ++ c :: o).getLast? ≠ some '.')
    (hw : isWhitespace c = false) (hp : c ≠ '(') (hc8 : c.utf8Size = 1)
    (hclock : ∀ p pre, At p pre (c :: o) → ∃ q, ClockValue.parse p = .err q ∧ q.input = p.input) :
    ∃ q, ListOf.parseString BeginEnd.parse (l ++ c :: o) = .err q := by
  have h0 : At (Parser.new (l ++ c :: o)) [] (l ++ c :: o) := ⟨rfl, rfl⟩
  obtain ⟨c1, u1, hcu, hc1⟩ := word_white h (c :: o)
  by_cases hi : l ++ back = "indefinite".toList
  · have hback : back = [] := by
      cases hb with
      | other _ _ _ _ _ => rfl
      | dash u _ =>
        have : '-' ∈ "indefinite".toList := by rw [← hi]; simp
        exact absurd this (by decide)
    obtain ⟨q, e, hin, o', ho', hq⟩ := word_ident h hb h0
    rw [hback] at ho' hq
    simp only [List.nil_append, List.append_nil] at ho' hq
    rw [hcu]
    refine left_new (a := .indefinite) hc1 ⟨q, _, c, o, ?_, by rw [ho']; exact hq, hw⟩
    rw [← hcu]
    have e1 : (Parser.new (l ++ c :: o)).tryParse (fun p => (p.expectIdentMatching "indefinite".toList).bind fun _ p => Res.ok BeginEnd.indefinite p) =
        .ok .indefinite q := by
      refine tryParse_ok ?_
      rw [Parser.expectIdentMatching, e]
      simp [Res.bind, hi]
    simp only [BeginEnd.parse, e1, orElse]
  · have hbeg := begin_word h hb h0 hl hi
    obtain ⟨q1, e1, h1, _⟩ := events_at h hb h0
    have hparts := parts_plain hdot
    rw [hcu]
    by_cases hr : l = "repeat".toList
    · refine err_new hc1 ?_
      obtain ⟨q2, e2, _⟩ := expectChar_err (c := '(') h1 (fun w e => hp (by simp only [List.cons.injEq] at e; exact e.1)) (ascii_head_cons.mpr hc8)
      refine ⟨q2, ?_⟩
      rw [← hcu, hbeg, e1, fromName, hparts, if_pos hr, repeats, e2]
      rfl
    · obtain ⟨p1, e2, h2⟩ := Verif.Number.At.skip (t := []) h1 (f := isWhitespace) (by simp)
        (by intro x w e; simp only [List.cons.injEq] at e; rw [← e.1]; exact hw)
      obtain ⟨q3, e3, h3⟩ := hclock _ _ h2
      refine left_new (a := .event none l none) hc1 ⟨p1, _, c, o, ?_, h2, hw⟩
      rw [← hcu, hbeg, e1, fromName, hparts, if_neg hr, named, Parser.skipWhitespace, e2]
      simp only [Res.bind, maybeClock, tryParse_err e3 h3]

theorem escape_append {a b : List Char} (h : '-' ∉ a) : escape (a ++ '-' :: b) = a ++ '\\' :: '-' :: escape b := by
  induction a with
  | nil => simp [escape]
  | cons c a ih =>
    simp only [List.mem_cons, not_or] at h
    have : (c == '-') = false := by simp [Ne.symm h.1]
    rw [List.cons_append, escape, this, ih h.2]
    rfl

theorem word_before {a b : List Char} (h : Name (a ++ '-' :: b)) (hd : '-' ∉ a) : Word a ∧ '.' ∉ a := by
  have hp : ∀ c ∈ a, plainChar c = true := by
    intro c hc
    have := h.2 c (by simp [hc])
    rcases Bool.eq_false_or_eq_true (plainChar c) with h' | h'
    · exact h'
    · rw [h', Bool.false_or, beq_iff_eq] at this
      exact absurd (this ▸ hc) hd
  refine ⟨⟨?_, fun c hc => ⟨(plain_facts (hp c hc)).1, (plain_facts (hp c hc)).2.1⟩⟩, plain_dot hp⟩
  obtain ⟨⟨c, t, e, hc⟩, _⟩ := h
  cases a with
  | nil =>
    simp only [List.nil_append, List.cons.injEq] at e
    rw [← e.1] at hc
    simp [Char.isAlpha, Char.isUpper, Char.isLower] at hc
  | cons x a =>
    simp only [List.cons_append, List.cons.injEq] at e
    exact ⟨x, a, rfl, by rw [e.1]; exact hc⟩

theorem name_last {ev o m : List Char} (hne : ev ≠ []) (hk : ∀ c ∈ ev, plainChar c = true) (ho : Wait Clock o v) :
    (m ++ (ev ++ o)).getLast? ≠ some '.' := by
  rw [← List.append_assoc]
  exact wait_last ho (plain_last' hne hk)

theorem escaped_fails {id ev o : List Char} (hn : Name id) (hd : '-' ∈ id) (hne : ev ≠ []) (hk : ∀ c ∈ ev, plainChar c = true) (ho : Wait Clock o v) :
    ∃ q, ListOf.parseString BeginEnd.parse (escape id ++ '.' :: (ev ++ o)) = .err q := by
  obtain ⟨a, b, rfl, ha⟩ := List.eq_append_cons_of_mem hd
  obtain ⟨hw, hdot⟩ := word_before hn ha
  rw [escape_append ha]
  have hl : ∀ m, (m ++ '\\' :: '-' :: (escape b ++ '.' :: (ev ++ o))).getLast? ≠ some '.' := by
    intro m
    rw [show m ++ '\\' :: '-' :: (escape b ++ '.' :: (ev ++ o)) = (m ++ '\\' :: '-' :: (escape b ++ ['.'])) ++ (ev ++ o) by simp]
    exact name_last hne hk ho
  rw [show a ++ '\\' :: '-' :: escape b ++ '.' :: (ev ++ o) = a ++ '\\' :: ('-' :: (escape b ++ '.' :: (ev ++ o))) by simp]
  refine named_left hw hdot (.other '\\' _ (by decide) (by decide) (by decide)) (hl a) (by decide) (by decide) (by decide) ?_
  intro p pre hp
  exact clock_fails (w := []) (g := []) (minus := false) (by intro x hx; simp at hx) (.inl ⟨rfl, rfl⟩) (by simpa using hp)
    ⟨by decide, by decide, by decide, by decide, by decide⟩ (by simpa using hl [])

/-- **C88 (the negation)** No begin value with a `-` in the name of its element is read, though the grammar says how it is
written: `visit_id` does not see the reference, and the element may be renamed or removed. -/
theorem escaped_violated {x : List Char} {τ : Trigger} (h : Begin Clock x τ) (hid : '-' ∈ τ.id) :
    ∃ q, ListOf.parseString BeginEnd.parse x = .err q := by
  cases h with
  | offset _ _ h => simp [Trigger.id] at hid
  | sync id begin o v hn ho =>
    exact escaped_fails hn hid (by cases begin <;> decide) (by cases begin <;> decide) ho
  | event id ev o v hn hev h1 h2 h3 ho => exact escaped_fails hn hid hev.1 (event_plain hev) ho
  | anyEvent ev o v hev h1 h2 ho => simp [Trigger.id] at hid
  | indefinite => simp [Trigger.id] at hid

/-- **C88 (the negation)** Nor is the name read where the `-` is not escaped: it is taken for the sign of the offset of the
event that is in front of it. -/
theorem dash_violated {a b ev o : List Char} (ha : Name a) (ha' : '-' ∉ a) (hb : Name b) (hb' : '-' ∉ b) (hne : ev ≠ [])
    (hk : ∀ c ∈ ev, plainChar c = true) (ho : Wait Clock o v) (hm : ∀ u, o ≠ '-' :: u) :
    ∃ q, ListOf.parseString BeginEnd.parse (a ++ '-' :: (b ++ '.' :: (ev ++ o))) = .err q := by
  have hp := name_plain ha ha'
  have hpb := name_plain hb hb'
  have hw : Word a := by
    refine ⟨ha.1, fun c hc => ⟨(plain_facts (hp c hc)).1, (plain_facts (hp c hc)).2.1⟩⟩
  have hl : ∀ m, (m ++ (b ++ '.' :: (ev ++ o))).getLast? ≠ some '.' := by
    intro m
    rw [show m ++ (b ++ '.' :: (ev ++ o)) = (m ++ (b ++ ['.'])) ++ (ev ++ o) by simp]
    exact name_last hne hk ho
  have htake : (b ++ '.' :: (ev ++ o)).takeWhile isNameChar = b ++ '.' :: ev := by
    have h1 : ∀ c ∈ b ++ '.' :: ev, isNameChar c = true := by
      intro c hc
      rcases List.mem_append.mp hc with hc | hc
      · exact (plain_facts (hpb c hc)).1
      · rcases List.mem_cons.mp hc with rfl | hc
        · decide
        · exact (plain_facts (hk c hc)).1
    rw [show b ++ '.' :: (ev ++ o) = (b ++ '.' :: ev) ++ o by simp, List.takeWhile_append_of_pos h1]
    obtain ⟨back, hback⟩ := wait_behind ho
    cases hback with
    | none => simp
    | other c u h1 _ _ => simp [h1]
    | dash u _ => exact absurd rfl (hm u)
  refine named_left (back := '-' :: (b ++ '.' :: ev)) hw (plain_dot hp) ?_ ?_ (by decide) (by decide) (by decide) ?_
  · rw [← htake]
    refine .dash _ ?_
    rw [htake]
    intro c hc
    rcases List.mem_append.mp hc with hc | hc
    · exact (plain_facts (hpb c hc)).2.1
    · rcases List.mem_cons.mp hc with rfl | hc
      · decide
      · exact (plain_facts (hk c hc)).2.1
  · have := hl (a ++ ['-'])
    simpa using this
  · intro p pre hpp
    obtain ⟨⟨c, t, rfl, hc⟩, _⟩ := hb
    exact clock_fails (w := []) (g := ['-']) (minus := true) (by intro x hx; simp at hx)
      (.inr ⟨'-', [], rfl, .inr rfl, by intro x hx; simp at hx, rfl⟩) (c := c) (u := t ++ '.' :: (ev ++ o)) (by simpa using hpp)
      (start_other hc) (by simpa using hl [])

/-- **C88 (the negation)** Every negative offset with a colon is changed: it does not mean the same any more. -/
theorem colon_violated {x z : List Char} {τ : Trigger} (h : Begin Clock x τ) (hb : Brief x) (hid : '-' ∉ τ.id)
    (hz : z = "0".toList ∨ z = "-0".toList) (hw : τ.wait < 0) (hc : ':' ∈ x) :
    ∃ b q, ListOf.parseString BeginEnd.parse x = .ok b q ∧ ¬ Begin Loose (b.text z) τ := by
  obtain ⟨b, q, e, h⟩ := begin_kept_iff h hb hid hz
  exact ⟨b, q, e, fun h' => (h.mp h').1 ⟨hw, hc⟩⟩

/-- **C88 (partial)** Everything else is kept: a begin value of the grammar whose element has no `-` in its name, without a
sign `-`, or with one in front of a time without a colon, provided that the sign of zero is written. -/
theorem begin_kept_partial {x : List Char} {τ : Trigger} (h : Begin Clock x τ) (hb : Brief x) (hid : '-' ∉ τ.id)
    (hw : 0 ≤ τ.wait ∨ ':' ∉ x) : ∃ b q, ListOf.parseString BeginEnd.parse x = .ok b q ∧ Begin Loose (b.text "-0".toList) τ := by
  obtain ⟨b, q, e, h⟩ := begin_kept_iff h hb hid (.inr rfl)
  refine ⟨b, q, e, h.mpr ⟨?_, by simp⟩⟩
  rintro ⟨h1, h2⟩
  rcases hw with hw | hw
  · exact absurd h1 (not_lt.mpr hw)
  · exact hw h2

end Verif.Clock
