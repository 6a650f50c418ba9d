import Verif.Keywords.Spec

/-! # C91: values made of keywords -/

namespace Verif.Keywords

open Verif.Parse

/-- All characters are white space. -/
def AllWhite (s : List Char) : Prop := ∀ c ∈ s, isWhitespace c = true

theorem drop_split (s : List Char) : ∃ a, AllWhite a ∧ s = a ++ s.dropWhile isWhitespace :=
  ⟨s.takeWhile isWhitespace, List.all_eq_true.1 List.all_takeWhile, by simp⟩

theorem drop_nil {s : List Char} (h : s.dropWhile isWhitespace = []) : AllWhite s := by
  obtain ⟨a, h1, h2⟩ := drop_split s
  rw [h, List.append_nil] at h2
  exact h2 ▸ h1

theorem drop_white {a : List Char} (h : AllWhite a) : a.dropWhile isWhitespace = [] := by
  induction a with
  | nil => rfl
  | cons c a ih => rw [List.dropWhile_cons, if_pos (h c (by simp))]; exact ih fun d hd => h d (by simp [hd])

/-- **C91 (keywords are written as they were read)** Whatever the table of an enum is: a text that is read as one of
its variants is the keyword of this variant, which is the text that is written for it, with nothing but white space around
it. -/
theorem enum_read (t : Table) (s : List Char) (i : Nat) (h : Reads (parseEnum t) s i) :
    i < t.length ∧ ∃ a b, AllWhite a ∧ AllWhite b ∧ s = a ++ writeEnum t i ++ b := by
  obtain ⟨r, h1, h2⟩ := (reads_iff (view_enum t) s i).1 h
  obtain ⟨h3, _, h4, _⟩ := gEnum_ok h1
  obtain ⟨a, h5, h6⟩ := drop_split s
  refine ⟨(List.getElem?_eq_some_iff.1 h4).1, a, r, h5, drop_nil h2, ?_⟩
  rw [h3] at h6
  simpa using h6

/-- A name, the first character of which takes one byte. -/
def IsName (k : Word) : Prop :=
  ∃ c t, k = c :: t ∧ c.utf8Size = 1 ∧ isNameStartChar c = true ∧ ∀ d ∈ t, isNameChar d = true

/-- **C91 (which keywords can be read again)** In a table without repetitions, the text written for a variant is read as
this variant exactly if its keyword is a name (which starts with a character of one byte). -/
theorem enum_kept_iff (t : Table) (hd : t.Nodup) (i : Nat) (hi : i < t.length) :
    Reads (parseEnum t) (writeEnum t i) i ↔ IsName (writeEnum t i) := by
  have hw : t[i]? = some (writeEnum t i) := by simp [writeEnum, List.getD, List.getElem?_eq_getElem hi]
  constructor
  · intro h
    obtain ⟨r, h1, h2⟩ := (reads_iff (view_enum t) _ i).1 h
    exact (gEnum_ok h1).2.2.2
  · rintro ⟨c, u, h1, h2, h3, h4⟩
    refine (reads_iff (view_enum t) _ i).2 ⟨[], ?_, rfl⟩
    have hc : isWhitespace c = false := by
      cases hcw : isWhitespace c with
      | false => rfl
      | true =>
        have := name_white hcw (by simp [isNameChar, h3])
        subst this
        revert h2; decide
    have e : (writeEnum t i).dropWhile isWhitespace = writeEnum t i := by
      rw [h1, List.dropWhile_cons, if_neg (by simp [hc])]
    rw [e]
    have hg : gIdent (writeEnum t i) = .ok (writeEnum t i) [] := by
      have := takeWhile_key (r := []) h4 (by simp)
      simp only [List.append_nil] at this
      simp [h1, gIdent, h2, h3, this.1, this.2]
    simp [gEnum, hg, Out.bind, gFind, find_get hd hw]

theorem tables_nodup : ∀ t ∈ tables, t.Nodup := by decide +kernel

theorem tables_keys : ∀ t ∈ tables, ∀ k ∈ t, k ≠ "additions text".toList → IsKey k := by decide +kernel

/-- **C91 (the enums of the attributes)** For each of the 69 enums of the attributes: the text written for a variant is
read as this variant, for all variants but `additions text` of `aria-relevant`, which never can be read. -/
theorem tables_kept_iff (t : Table) (ht : t ∈ tables) (i : Nat) (hi : i < t.length) :
    Reads (parseEnum t) (writeEnum t i) i ↔ writeEnum t i ≠ "additions text".toList := by
  rw [enum_kept_iff t (tables_nodup t ht) i hi]
  constructor
  · rintro ⟨c, u, h1, _, _, h4⟩ e
    rw [e] at h1
    have : u = "dditions text".toList := by
      have h5 := (List.cons.inj (show 'a' :: "dditions text".toList = c :: u from h1)).2
      exact h5.symm
    have := h4 ' ' (by rw [this]; decide)
    revert this; decide
  · intro h
    have hw : writeEnum t i ∈ t := by
      rw [writeEnum, List.getD, List.getElem?_eq_getElem hi]
      exact List.getElem_mem hi
    obtain ⟨c, u, h1, h2, h3, h4, _⟩ := tables_keys t ht _ hw h
    exact ⟨c, u, h1, h2, h3, h4⟩

/-! ## Inherited values -/

def gInherit : List Char → Out Unit := fun r => (gIdent r).bind fun w r => if w = "inherit".toList then .ok () r else .err

theorem view_matching (e : Word) : View (fun p => p.expectIdentMatching e)
    (fun r => (gIdent r).bind fun w r => if w = e then .ok () r else .err) := by
  refine view_bind (f' := fun received q => if received = e then .ok () q else .err q) view_ident fun w => ?_
  by_cases h : w = e
  · simp only [h, if_true]; exact view_ok ()
  · simp only [h, if_false]; exact view_err

theorem view_inheritable {α : Type} {f : Parser → Res α} {g : List Char → Out α} (h : View f g) :
    View (parseInheritable f) (gOr (fun r => ((gIdent r).bind fun w r => if w = "inherit".toList then .ok () r else .err).bind
      fun _ r => .ok none r) (fun r => (g r).bind fun a r => .ok (some a) r)) :=
  view_or (view_bind (view_matching _) fun _ => view_ok _) (view_bind h fun a => view_ok _)

/-- **C91 (inherited values)** Whatever the type of the value is: a text is read as the inherited value only if it is
`inherit` with white space around it, and this is what is written for it; any other value is one that the type itself reads
from the text. -/
theorem inherit_read {α : Type} {f : Parser → Res α} {g : List Char → Out α} (hv : View f g) (s : List Char) :
    (Reads (parseInheritable f) s none → ∃ a b, AllWhite a ∧ AllWhite b ∧ s = a ++ "inherit".toList ++ b) ∧
    (∀ v, Reads (parseInheritable f) s (some v) → Reads f s v) ∧
    Reads (parseInheritable f) "inherit".toList none := by
  refine ⟨?_, ?_, ?_⟩
  · intro h
    obtain ⟨r, h1, h2⟩ := (reads_iff (view_inheritable hv) s none).1 h
    simp only [gOr] at h1
    cases hi : gIdent (s.dropWhile isWhitespace) with
    | ok w r' =>
      simp only [hi, Out.bind] at h1
      by_cases hw : w = "inherit".toList
      · simp only [hw, if_true] at h1
        cases h1
        obtain ⟨h3, _⟩ := gIdent_ok hi
        obtain ⟨a, h5, h6⟩ := drop_split s
        rw [h3, hw] at h6
        exact ⟨a, r, h5, drop_nil h2, by simpa using h6⟩
      · simp only [hw, if_false] at h1
        cases hg : g (s.dropWhile isWhitespace) <;> simp [hg] at h1
    | err =>
      simp only [hi, Out.bind] at h1
      cases hg : g (s.dropWhile isWhitespace) <;> simp [hg] at h1
    | panic => simp [hi, Out.bind] at h1
  · intro v h
    obtain ⟨r, h1, h2⟩ := (reads_iff (view_inheritable hv) s _).1 h
    refine (reads_iff hv s v).2 ⟨r, ?_, h2⟩
    simp only [gOr] at h1
    have key : ((g (s.dropWhile isWhitespace)).bind fun a r => Out.ok (some a) r) = .ok (some v) r →
        g (s.dropWhile isWhitespace) = .ok v r := by
      cases hg : g (s.dropWhile isWhitespace) <;> simp [Out.bind]
    cases hi : gIdent (s.dropWhile isWhitespace) with
    | ok w r' =>
      simp only [hi, Out.bind] at h1
      by_cases hw : w = "inherit".toList
      · simp [hw] at h1
      · simp only [hw, if_false] at h1
        exact key (by simpa only [Out.bind] using h1)
    | err =>
      simp only [hi, Out.bind] at h1
      exact key (by simpa only [Out.bind] using h1)
    | panic => simp [hi, Out.bind] at h1
  · refine (reads_iff (view_inheritable hv) _ none).2 ⟨[], ?_, rfl⟩
    have : gIdent ("inherit".toList.dropWhile isWhitespace) = .ok "inherit".toList [] := by
      have := gIdent_key (k := "inherit".toList) (r := []) (by decide) (by intro c t e; cases e)
      exact this
    simp only [gOr, this, Out.bind, if_true]

/-! ## `paint-order` -/

def gPaints : Nat → List Nat → List Char → Out (List Nat)
  | 0, l, r => .ok l r
  | n + 1, l, r =>
    match gEnum tPaint r with
    | .ok i r => gPaints n (l ++ [i]) (r.dropWhile isWhitespace)
    | .err => .ok l r
    | .panic => .panic

theorem view_paints : ∀ n l, View (paints n l) (gPaints n l)
  | 0, l => view_ok l
  | n + 1, l => by
    intro p pre rest hp
    have h1 := view_tryParse (view_enum tPaint) hp
    simp only [paints, gPaints]
    cases hg : gEnum tPaint rest with
    | ok i r =>
      simp only [hg] at h1
      obtain ⟨w, q, h2, h3, h4⟩ := h1
      simp only [h3]
      have h5 := view_bind view_white (fun _ => view_paints n (l ++ [i])) q _ _ h4
      simp only [gWhite, Out.bind] at h5
      cases hg2 : gPaints n (l ++ [i]) (r.dropWhile isWhitespace) with
      | ok a r' =>
        simp only [hg2] at h5
        obtain ⟨w', q', h6, h7, h8⟩ := h5
        exact ⟨w ++ w', q', by rw [h2, h6]; simp, h7, by simpa using h8⟩
      | err =>
        simp only [hg2] at h5
        obtain ⟨q', h6, h7⟩ := h5
        exact ⟨q', h6, h7.trans (by subst h2; exact At.same hp h4)⟩
      | panic => simp only [hg2] at h5; exact h5
    | err =>
      simp only [hg] at h1
      rw [h1]
      exact ⟨[], p, rfl, rfl, by simpa using hp⟩
    | panic =>
      simp only [hg] at h1
      simp [h1]

def gPaintOrder (r : List Char) : Out (List Nat) :=
  match (gIdent r).bind fun w r => if w = "normal".toList then .ok () r else .err with
  | .ok _ r => .ok normalOrder r
  | .panic => .panic
  | .err => (gPaints 3 [] r).bind fun l r =>
      if l.isEmpty then .err else if (complete l).length > 3 then .err else .ok (complete l) r

theorem view_paintOrder : View parsePaintOrder gPaintOrder := by
  intro p pre rest hp
  have h1 := view_tryParse (view_matching "normal".toList) hp
  simp only [parsePaintOrder, gPaintOrder]
  generalize ((gIdent rest).bind fun w r => if w = "normal".toList then Out.ok () r else .err) = o at h1
  cases o with
  | ok u r =>
    obtain ⟨w, q, h2, h3, h4⟩ := h1
    rw [h3]
    exact ⟨w, q, h2, rfl, h4⟩
  | err =>
    simp only at h1
    rw [h1]
    refine view_bind (view_paints 3 []) (f' := fun l q => if l.isEmpty then .err q
      else if (complete l).length > 3 then .err q else .ok (complete l) q) (fun l => ?_) p pre rest hp
    by_cases c1 : l.isEmpty
    · simp only [c1, if_true]; exact view_err
    · by_cases c2 : (complete l).length > 3
      · simp only [c1, c2, if_true]; exact view_err
      · simp only [c1, c2, if_false]; exact view_ok _
  | panic =>
    simp only at h1
    simp only [h1]

/-- The keyword of a paint operation. -/
def paintWord (i : Nat) : Word := writeEnum tPaint i

theorem keys_paint : Keys tPaint := by decide +kernel

theorem paints_chain : ∀ n l r l' r', gPaints n l r = .ok l' r' → ∃ is : List Nat, l' = l ++ is ∧ is.length ≤ n ∧
    (∀ i ∈ is, i < 3) ∧ ∀ s, s.dropWhile isWhitespace = r → ∃ r2, r' = r2.dropWhile isWhitespace ∧ Chain s (is.map paintWord) r2
  | 0, l, r, l', r', h => by
    cases h
    refine ⟨[], by simp, by simp, by simp, ?_⟩
    intro s hs
    exact ⟨s, hs.symm, .nil⟩
  | n + 1, l, r, l', r', h => by
    simp only [gPaints] at h
    cases hg : gEnum tPaint r with
    | ok i r1 =>
      simp only [hg] at h
      obtain ⟨is, h1, h2, h3, h4⟩ := paints_chain n _ _ _ _ h
      obtain ⟨h5, h6⟩ := gEnum_chain keys_paint hg
      refine ⟨i :: is, by simp [h1], by simp [h2], ?_, ?_⟩
      · intro j hj
        rcases List.mem_cons.1 hj with rfl | hj
        · exact h6
        · exact h3 j hj
      · intro s hs
        obtain ⟨r2, h7, h8⟩ := h4 r1 rfl
        refine ⟨r2, h7, ?_⟩
        subst hs
        exact chain_white.trans (h5.trans h8)
    | err =>
      simp only [hg] at h
      cases h
      refine ⟨[], by simp, by simp, by simp, ?_⟩
      intro s hs
      exact ⟨s, hs.symm, .nil⟩
    | panic => simp [hg] at h

/-- What the words of `paint-order` stand for: the operations that are given, each once, are done first, the others
follow in the order `fill`, `stroke`, `markers` (1, 0, 2). -/
inductive PaintMeans : List Word → List Nat → Prop
  | normal : PaintMeans ["normal".toList] [1, 0, 2]
  | given {is : List Nat} : is ≠ [] → is.Nodup → (∀ i ∈ is, i < 3) →
      PaintMeans (is.map paintWord) (is ++ [1, 0, 2].filter fun i => !is.contains i)

theorem complete_spec : ∀ is : List Nat, is ≠ [] → is.length ≤ 3 → (∀ i ∈ is, i < 3) → (complete is).length ≤ 3 →
    is.Nodup ∧ complete is = is ++ [1, 0, 2].filter fun i => !is.contains i := by
  have h1 : ∀ a < 3, (complete [a]).length ≤ 3 → [a].Nodup ∧ complete [a] = [a] ++ [1, 0, 2].filter fun i => ![a].contains i := by
    decide +kernel
  have h2 : ∀ a < 3, ∀ b < 3, (complete [a, b]).length ≤ 3 →
      [a, b].Nodup ∧ complete [a, b] = [a, b] ++ [1, 0, 2].filter fun i => ![a, b].contains i := by decide +kernel
  have h3 : ∀ a < 3, ∀ b < 3, ∀ c < 3, (complete [a, b, c]).length ≤ 3 →
      [a, b, c].Nodup ∧ complete [a, b, c] = [a, b, c] ++ [1, 0, 2].filter fun i => ![a, b, c].contains i := by decide +kernel
  intro is h0 hl hb hc
  match is, h0, hl with
  | [a], _, _ => exact h1 a (hb a (by simp)) hc
  | [a, b], _, _ => exact h2 a (hb a (by simp)) b (hb b (by simp)) hc
  | [a, b, c], _, _ => exact h3 a (hb a (by simp)) b (hb b (by simp)) c (hb c (by simp)) hc
  | a :: b :: c :: d :: l, _, h => simp at h

theorem nodup_short {is : List Nat} (hn : is.Nodup) (hb : ∀ i ∈ is, i < 3) : is.length ≤ 3 := by
  match is with
  | [] => simp
  | [a] => simp
  | [a, b] => simp
  | [a, b, c] => simp
  | a :: b :: c :: d :: l =>
    simp at hn hb
    omega

theorem complete_nodup {is : List Nat} (h0 : is ≠ []) (hn : is.Nodup) (hb : ∀ i ∈ is, i < 3) : (complete is).length ≤ 3 := by
  have h1 : ∀ a < 3, (complete [a]).length ≤ 3 := by decide +kernel
  have h2 : ∀ a < 3, ∀ b < 3, [a, b].Nodup → (complete [a, b]).length ≤ 3 := by decide +kernel
  have h3 : ∀ a < 3, ∀ b < 3, ∀ c < 3, [a, b, c].Nodup → (complete [a, b, c]).length ≤ 3 := by decide +kernel
  have hl := nodup_short hn hb
  match is, h0, hl with
  | [a], _, _ => exact h1 a (hb a (by simp))
  | [a, b], _, _ => exact h2 a (hb a (by simp)) b (hb b (by simp)) hn
  | [a, b, c], _, _ => exact h3 a (hb a (by simp)) b (hb b (by simp)) c (hb c (by simp)) hn
  | a :: b :: c :: d :: l, _, h => simp at h

theorem key_normal : IsKey "normal".toList := by decide +kernel

/-- **C91 (paint order)** A text of `paint-order` that is read has the words of a valid value, and is read as the order
that the value stands for. -/
theorem paint_read (s : List Char) (l : List Nat) (h : Reads parsePaintOrder s l) : PaintMeans (words s) l := by
  obtain ⟨r, h1, h2⟩ := (reads_iff view_paintOrder s l).1 h
  simp only [gPaintOrder] at h1
  have hpaint : ((gPaints 3 [] (s.dropWhile isWhitespace)).bind fun l r =>
      if l.isEmpty then .err else if (complete l).length > 3 then .err else .ok (complete l) r) = Out.ok l r →
      PaintMeans (words s) l := by
    intro h1
    cases hg : gPaints 3 [] (s.dropWhile isWhitespace) with
    | ok l0 r0 =>
      simp only [hg, Out.bind] at h1
      by_cases c1 : l0.isEmpty
      · simp [c1] at h1
      · by_cases c2 : (complete l0).length > 3
        · simp [c2] at h1
        · simp only [c1, c2, if_false] at h1
          cases h1
          obtain ⟨is, h3, h4, h5, h6⟩ := paints_chain 3 _ _ _ _ hg
          simp only [List.nil_append] at h3
          subst h3
          obtain ⟨r2, h7, h8⟩ := h6 s rfl
          have h9 : words s = l0.map paintWord := by
            have hend : Chain r2 [] [] := by
              have h10 := chain_white (s := r2)
              rw [← h7] at h10
              exact h10.trans (chain_end h2)
            have := chain_words (h8.trans hend) rfl
            simpa using this
          have h0 : l0 ≠ [] := by simpa using c1
          obtain ⟨h11, h12⟩ := complete_spec l0 h0 h4 h5 (by omega)
          rw [h9, h12]
          exact .given h0 h11 h5
    | err => simp [hg, Out.bind] at h1
    | panic => simp [hg, Out.bind] at h1
  cases hi : gIdent (s.dropWhile isWhitespace) with
  | ok w r' =>
    simp only [hi, Out.bind] at h1
    by_cases hw : w = "normal".toList
    · simp only [hw, if_true] at h1
      cases h1
      obtain ⟨h3, h4, _⟩ := gIdent_ok hi
      have hch : Chain s ["normal".toList] [] := by
        have h5 := chain_white (s := s)
        rw [h3, hw] at h5
        exact h5.trans ((Chain.key key_normal h4 .nil).trans (chain_end h2))
      rw [chain_words hch rfl]
      exact .normal
    · simp only [hw, if_false] at h1
      exact hpaint (by simpa only [Out.bind] using h1)
  | err =>
    simp only [hi, Out.bind] at h1
    exact hpaint (by simpa only [Out.bind] using h1)
  | panic => simp [hi, Out.bind] at h1

theorem paints_read : ∀ (is : List Nat) n l s, (∀ i ∈ is, i < 3) → is.length ≤ n → Chain s (is.map paintWord) [] →
    gPaints n l (s.dropWhile isWhitespace) = .ok (l ++ is) []
  | [], n, l, s, _, _, hc => by
    rw [chain_nil (by simpa using hc)]
    cases n with
    | zero => simp [gPaints]
    | succ n => simp [gPaints, gEnum, gIdent, Out.bind]
  | i :: is, n, l, s, hb, hl, hc => by
    obtain ⟨hk, r1, h1, h2, h3⟩ := chain_cons (by simpa using hc)
    cases n with
    | zero => simp at hl
    | succ n =>
      rw [h1]
      have hf : find tPaint (paintWord i) = some i := by
        have : ∀ i < 3, find tPaint (paintWord i) = some i := by decide +kernel
        exact this i (hb i (by simp))
      simp only [gPaints, gEnum_key tPaint hk h2, gFind, hf]
      rw [paints_read is n _ r1 (fun j hj => hb j (by simp [hj])) (by simpa using hl) h3]
      simp

/-- **C91 (paint order)** Every text whose words are a valid value of `paint-order` is read, as the order that the
value stands for (if no ogham space mark is in it, which counts as white space and as a part of names). -/
theorem paint_accepts (s : List Char) (l : List Nat) (hs : ogham ∉ s) (h : PaintMeans (words s) l) : Reads parsePaintOrder s l := by
  refine (reads_iff view_paintOrder s l).2 ?_
  generalize hws : words s = ws at h
  cases h with
  | normal =>
    have hc := words_chain hs (by rw [hws]; intro k hk; simp at hk; rw [hk]; exact key_normal)
    rw [hws] at hc
    obtain ⟨hk, r1, h1, h2, h3⟩ := chain_cons hc
    refine ⟨r1, ?_, chain_nil h3⟩
    rw [h1]
    simp only [gPaintOrder, gIdent_key hk h2, Out.bind, if_true, normalOrder]
  | @given is h0 hn hb =>
    have hkw : ∀ i < 3, IsKey (paintWord i) ∧ paintWord i ≠ "normal".toList := by decide +kernel
    have hc := words_chain hs (by
      rw [hws]; intro k hk
      obtain ⟨i, hi, rfl⟩ := List.mem_map.1 hk
      exact (hkw i (hb i hi)).1)
    rw [hws] at hc
    have h1 := paints_read is 3 [] s hb (nodup_short hn hb) hc
    refine ⟨[], ?_, rfl⟩
    have h2 : ((gIdent (s.dropWhile isWhitespace)).bind fun w r => if w = "normal".toList then Out.ok () r else .err) = .err := by
      cases is with
      | nil => exact absurd rfl h0
      | cons i is =>
        obtain ⟨hk, r1, h1, h2, h3⟩ := chain_cons (by simpa using hc)
        rw [h1]
        simp only [gIdent_key hk h2, Out.bind, if_neg (hkw i (hb i (by simp))).2]
    have h3 := complete_nodup h0 hn hb
    rw [List.nil_append] at h1
    unfold gPaintOrder
    rw [h2, h1]
    simp only [Out.bind]
    rw [if_neg (by simpa using h0), if_neg (by omega)]
    rw [(complete_spec is h0 (nodup_short hn hb) hb h3).2]

/-- A test whether a text is read as a value. -/
def readsB {α : Type} [DecidableEq α] (f : Parser → Res α) (s : List Char) (a : α) : Bool :=
  match parseString f s with | .ok b _ => decide (b = a) | _ => false

theorem reads_of {α : Type} [DecidableEq α] {f : Parser → Res α} {s : List Char} {a : α} (h : readsB f s a = true) :
    Reads f s a := by
  unfold Reads
  unfold readsB at h
  cases hp : parseString f s with
  | ok b q => rw [hp] at h; exact ⟨q, by rw [of_decide_eq_true h]⟩
  | err q => rw [hp] at h; cases h
  | panic => rw [hp] at h; cases h

/-- The six orders. -/
def orders : List (List Nat) := [[1, 0, 2], [1, 2, 0], [0, 1, 2], [0, 2, 1], [2, 0, 1], [2, 1, 0]]

/-- **C91 (paint order is kept)** The order that a text of `paint-order` is read as can be written, and the text that is
written stands for the same order and is read as it. -/
theorem paint_kept (s : List Char) (l : List Nat) (h : Reads parsePaintOrder s l) :
    ∃ w, writePaintOrder l = some w ∧ PaintMeans (words w) l ∧ Reads parsePaintOrder w l := by
  have key : ∀ l ∈ orders,
      ∃ w, writePaintOrder l = some w ∧ Reads parsePaintOrder w l := by
    intro l hl
    simp only [orders, List.mem_cons, List.not_mem_nil, or_false] at hl
    rcases hl with rfl | rfl | rfl | rfl | rfl | rfl
    · exact ⟨"normal".toList, by decide +kernel, reads_of (by decide +kernel)⟩
    · exact ⟨"fill markers stroke".toList, by decide +kernel, reads_of (by decide +kernel)⟩
    · exact ⟨"stroke fill markers".toList, by decide +kernel, reads_of (by decide +kernel)⟩
    · exact ⟨"stroke markers fill".toList, by decide +kernel, reads_of (by decide +kernel)⟩
    · exact ⟨"markers stroke fill".toList, by decide +kernel, reads_of (by decide +kernel)⟩
    · exact ⟨"markers fill stroke".toList, by decide +kernel, reads_of (by decide +kernel)⟩
  have hl : l ∈ orders := by
    have := paint_read s l h
    generalize words s = ws at this
    cases this with
    | normal => decide +kernel
    | @given is h0 hn hb =>
      have h1 : ∀ a < 3, orders.contains ([a] ++ [1, 0, 2].filter fun i => ![a].contains i) = true := by decide +kernel
      have h2 : ∀ a < 3, ∀ b < 3, [a, b].Nodup → orders.contains ([a, b] ++ [1, 0, 2].filter fun i => ![a, b].contains i) = true := by decide +kernel
      have h3 : ∀ a < 3, ∀ b < 3, ∀ c < 3, [a, b, c].Nodup → orders.contains ([a, b, c] ++ [1, 0, 2].filter fun i => ![a, b, c].contains i) = true := by decide +kernel
      have hl := nodup_short hn hb
      match is, h0, hl with
      | [a], _, _ => exact List.contains_iff_mem.1 <| h1 a (hb a (by simp))
      | [a, b], _, _ => exact List.contains_iff_mem.1 <| h2 a (hb a (by simp)) b (hb b (by simp)) hn
      | [a, b, c], _, _ => exact List.contains_iff_mem.1 <| h3 a (hb a (by simp)) b (hb b (by simp)) c (hb c (by simp)) hn
      | a :: b :: c :: d :: l, _, h => simp at h
  obtain ⟨w, h1, h2⟩ := key l hl
  exact ⟨w, h1, paint_read w l h2, h2⟩

/-! ## `preserveAspectRatio` -/

def gAspect (r : List Char) : Out (Nat × Nat) :=
  (gEnum tPreserveAspectRatioAlign r).bind fun a r => (gWhite r).bind fun _ r =>
    gOr (fun r => (gEnum tPreserveAspectRatioMeetOrSlice r).bind fun m r => .ok (a, if a = 0 then 0 else m) r)
      (fun r => .ok (a, 0) r) r

theorem view_aspect : View parseAspect gAspect := by
  have h := view_bind (view_enum tPreserveAspectRatioAlign) fun a => view_bind view_white fun _ =>
    view_or (view_bind (view_enum tPreserveAspectRatioMeetOrSlice) fun m => view_ok (a, if a = 0 then 0 else m)) (view_ok (a, 0))
  have e : parseAspect = fun p => (parseEnum tPreserveAspectRatioAlign p).bind fun a p => p.skipWhitespace.bind fun _ p =>
      orElse (fun p => (parseEnum tPreserveAspectRatioMeetOrSlice p).bind fun m p => .ok (a, if a = 0 then 0 else m) p)
        (fun p => .ok (a, 0) p) p := by
    funext p
    unfold parseAspect orElse Parser.tryParse
    congr 1
    funext a p
    congr 1
    funext _ p
    simp only
    cases parseEnum tPreserveAspectRatioMeetOrSlice p <;> rfl
  rw [e]
  exact h

/-- What the words of `preserveAspectRatio` stand for: an alignment, and whether to slice (1) or to meet (0); without
alignment (`none`, 0) the second word does not count. -/
inductive AspectMeans : List Word → Nat × Nat → Prop
  | one {a : Nat} : a < 10 → AspectMeans [writeEnum tPreserveAspectRatioAlign a] (a, 0)
  | two {a m : Nat} : a < 10 → m < 2 →
      AspectMeans [writeEnum tPreserveAspectRatioAlign a, writeEnum tPreserveAspectRatioMeetOrSlice m] (a, if a = 0 then 0 else m)

theorem keys_align : Keys tPreserveAspectRatioAlign := by decide +kernel

theorem keys_slice : Keys tPreserveAspectRatioMeetOrSlice := by decide +kernel

/-- **C91 (aspect ratio)** A text of `preserveAspectRatio` that is read has the words of a valid value, and is read as what
the value stands for. -/
theorem aspect_read (s : List Char) (v : Nat × Nat) (h : Reads parseAspect s v) : AspectMeans (words s) v := by
  obtain ⟨r, h1, h2⟩ := (reads_iff view_aspect s v).1 h
  unfold gAspect at h1
  cases hg : gEnum tPreserveAspectRatioAlign (s.dropWhile isWhitespace) with
  | ok a r1 =>
    obtain ⟨h3, h4⟩ := gEnum_chain keys_align hg
    have h3 := chain_white.trans (h3.trans chain_white)
    simp only [hg, Out.bind, gWhite, gOr] at h1
    cases hm : gEnum tPreserveAspectRatioMeetOrSlice (r1.dropWhile isWhitespace) with
    | ok m r2 =>
      simp only [hm] at h1
      cases h1
      obtain ⟨h5, h6⟩ := gEnum_chain keys_slice hm
      rw [chain_words (h3.trans (h5.trans (chain_end h2))) rfl]
      exact .two h4 h6
    | err =>
      simp only [hm] at h1
      cases h1
      rw [chain_words (h3.trans (chain_end h2)) rfl]
      exact .one h4
    | panic => simp [hm] at h1
  | err => simp [hg, Out.bind] at h1
  | panic => simp [hg, Out.bind] at h1

theorem gEnum_nil (t : Table) : gEnum t [] = .err := rfl

/-- **C91 (aspect ratio)** Every text whose words are a valid value of `preserveAspectRatio` is read, as what the value
stands for. -/
theorem aspect_accepts (s : List Char) (v : Nat × Nat) (hs : ogham ∉ s) (h : AspectMeans (words s) v) : Reads parseAspect s v := by
  refine (reads_iff view_aspect s v).2 ?_
  have ha : ∀ a < 10, IsKey (writeEnum tPreserveAspectRatioAlign a) ∧
      find tPreserveAspectRatioAlign (writeEnum tPreserveAspectRatioAlign a) = some a := by decide +kernel
  have hm : ∀ m < 2, IsKey (writeEnum tPreserveAspectRatioMeetOrSlice m) ∧
      find tPreserveAspectRatioMeetOrSlice (writeEnum tPreserveAspectRatioMeetOrSlice m) = some m := by decide +kernel
  generalize hws : words s = ws at h
  cases h with
  | @one a h1 =>
    have hc := words_chain hs (by rw [hws]; intro k hk; simp at hk; rw [hk]; exact (ha a h1).1)
    rw [hws] at hc
    obtain ⟨hk, r1, h2, h3, h4⟩ := chain_cons hc
    refine ⟨[], ?_, rfl⟩
    simp only [gAspect, h2, gEnum_key _ hk h3, gFind, (ha a h1).2, Out.bind, gWhite, chain_nil h4, gOr, gEnum_nil]
  | @two a m h1 h5 =>
    have hc := words_chain hs (by
      rw [hws]; intro k hk
      simp at hk
      rcases hk with rfl | rfl
      · exact (ha a h1).1
      · exact (hm m h5).1)
    rw [hws] at hc
    obtain ⟨hk, r1, h2, h3, h4⟩ := chain_cons hc
    obtain ⟨hk', r2, h6, h7, h8⟩ := chain_cons h4
    refine ⟨r2, ?_, chain_nil h8⟩
    simp only [gAspect, h2, gEnum_key _ hk h3, gFind, (ha a h1).2, Out.bind, gWhite, h6, gOr, gEnum_key _ hk' h7, (hm m h5).2]

/-- **C91 (aspect ratio is kept)** The text that is written for a value of `preserveAspectRatio` that was read stands for
the same value and is read as it. -/
theorem aspect_kept (s : List Char) (v : Nat × Nat) (h : Reads parseAspect s v) :
    AspectMeans (words (writeAspect v)) v ∧ Reads parseAspect (writeAspect v) v := by
  have key : ∀ a < 10, ∀ m < 2, (a = 0 → m = 0) →
      readsB parseAspect (writeAspect (a, m)) (a, m) = true := by decide +kernel
  have hv : v.1 < 10 ∧ v.2 < 2 ∧ (v.1 = 0 → v.2 = 0) := by
    have := aspect_read s v h
    generalize words s = ws at this
    cases this with
    | one h1 => exact ⟨h1, by simp, by simp⟩
    | @two a m h1 h2 =>
      refine ⟨h1, ?_, by intro e; simp [show a = 0 from e]⟩
      simp only
      split <;> omega
  have h1 := key v.1 hv.1 v.2 hv.2.1 hv.2.2
  have h2 : Reads parseAspect (writeAspect v) v := by
    obtain ⟨a, m⟩ := v
    exact reads_of h1
  exact ⟨aspect_read _ _ h2, h2⟩

end Verif.Keywords
