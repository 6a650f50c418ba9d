import Verif.Xml.Lay
import Verif.Xml.Claim

/-!
# Reading what was written
-/

namespace Verif.Xml

set_option linter.unusedSectionVars false

/-- A tree in which texts have both their written and their decoded form. -/
inductive Raw where
  | elem (n : Str) (as : List (Str × Str × Str)) (ks : List Raw)
  | text (raw val : Str)
  | comment (s : Str)
  | pi (t : Str) (d : Option Str)

mutual
def showRaw (sq sc : Bool) : Raw → Str
  | .elem n as ks =>
    if ks.isEmpty && sc then [lt] ++ n ++ showAttrs sq as ++ [slash, gt]
    else [lt] ++ n ++ showAttrs sq as ++ [gt] ++ showRaws sq sc ks ++ [lt, slash] ++ n ++ [gt]
  | .text r _ => r
  | .comment s => [lt, bang, dash, dash] ++ s ++ [dash, dash, gt]
  | .pi t d => [lt, quest] ++ t ++ piData d ++ [quest, gt]
def showRaws (sq sc : Bool) : List Raw → Str
  | [] => []
  | n :: ns => showRaw sq sc n ++ showRaws sq sc ns
end

mutual
def docOf : Raw → Doc
  | .elem n as ks => .elem n (as.map (·.2)) (docsOf ks)
  | .text _ v => .text v
  | .comment s => .comment s
  | .pi t d => .pi t d
def docsOf : List Raw → List Doc
  | [] => []
  | n :: ns => docOf n :: docsOf ns
end

/-- Two texts become one. -/
def glueRaw : Raw → List Raw → List Raw
  | .text r v, .text r' v' :: ns => .text (r ++ r') (v ++ v') :: ns
  | n, ns => n :: ns

mutual
def toRaw : Laid → Raw
  | .elem n as ks => .elem n as (toRaws ks)
  | .text s => .text (esc false false s) s
  | .style s => .text s s
  | .comment s => .comment s
  | .pi t d => .pi t d
def toRaws : List Laid → List Raw
  | [] => []
  | n :: ns => glueRaw (toRaw n) (toRaws ns)
end

theorem show_glue (sq sc : Bool) (n : Raw) (ns : List Raw) : showRaws sq sc (glueRaw n ns) = showRaw sq sc n ++ showRaws sq sc ns := by
  unfold glueRaw
  split
  · simp [showRaws, showRaw]
  · rfl

theorem toRaws_isEmpty (ns : List Laid) : (toRaws ns).isEmpty = ns.isEmpty := by
  cases ns with
  | nil => rfl
  | cons n ns =>
    simp only [toRaws, List.isEmpty_cons]
    unfold glueRaw
    split <;> rfl

mutual
theorem show_toRaw (sq sc : Bool) (n : Laid) : showRaw sq sc (toRaw n) = showNode sq sc n := by
  match n with
  | .elem n as ks =>
    simp only [toRaw, showRaw, showNode, toRaws_isEmpty, show_toRaws sq sc ks]
  | .text s => rfl
  | .style s => rfl
  | .comment s => rfl
  | .pi t d => rfl
theorem show_toRaws (sq sc : Bool) (ns : List Laid) : showRaws sq sc (toRaws ns) = showAll sq sc ns := by
  match ns with
  | [] => rfl
  | n :: ns => simp only [toRaws, show_glue, showAll, show_toRaw sq sc n, show_toRaws sq sc ns]
end

/-! ## What may be written -/

/-- Attributes that can be written. -/
structure AttrsOk (as : List (Str × Str × Str)) : Prop where
  sep : ∀ a ∈ as, a.1 ≠ [] ∧ ∀ c ∈ a.1, isS c = true
  name : ∀ a ∈ as, isName a.2.1 = true
  value : ∀ a ∈ as, valueChars a.2.2 = true
  distinct : (as.map (·.2.1)).Nodup

/-- The written form `r` of the text `v`. -/
structure TextOk (r v : Str) : Prop where
  ne : r ≠ []
  chars : plainChars r = true
  open' : ∀ c ∈ r, c ≠ 60
  cd : cdEnd r = false
  start : noCdStart r = true
  dec : ∀ x, Escape.decode (r ++ x) = (Escape.decode x).map (v ++ ·)

def isRawText : List Raw → Bool
  | .text _ _ :: _ => true
  | _ => false

mutual
def RawOk : Raw → Prop
  | .elem n as ks => isName n = true ∧ AttrsOk as ∧ RawsOk ks
  | .text r v => TextOk r v
  | .comment s => commentOk s = true
  | .pi t d => isName t = true ∧ isXmlTarget t = false ∧ piOk d = true
def RawsOk : List Raw → Prop
  | [] => True
  | n :: ns => RawOk n ∧ RawsOk ns ∧ (isRawText [n] = true → isRawText ns = false)
end

mutual
def LaidOk : Laid → Prop
  | .elem n as ks => isName n = true ∧ AttrsOk as ∧ LaidsOk ks
  | .text s => s ≠ [] ∧ plainChars s = true
  | .style s => styleOk s = true
  | .comment s => commentOk s = true
  | .pi t d => isName t = true ∧ isXmlTarget t = false ∧ piOk d = true
def LaidsOk : List Laid → Prop
  | [] => True
  | n :: ns => LaidOk n ∧ LaidsOk ns
end

/-! ## Escaped text -/

theorem unit_facts (c : Nat) (hc : isChar c = true) (h13 : c ≠ 13) :
    Escape.unit false false c ≠ [] ∧ plainChars (Escape.unit false false c) = true ∧
      ∀ x ∈ Escape.unit false false c, x ≠ 60 ∧ x ≠ 62 := by
  unfold Escape.unit Escape.escapedChar Escape.amp Escape.gt Escape.lt
  by_cases h1 : c = 38
  · subst h1; simp [plainChars, isChar]
  by_cases h2 : c = 62
  · subst h2; simp [plainChars, isChar]
  by_cases h3 : c = 60
  · subst h3; simp [plainChars, isChar]
  · simp [h1, h2, h3, plainChars, hc, h13]

theorem cdEnd_of_no62 {s : Str} (h : ∀ x ∈ s, x ≠ 62) : cdEnd s = false := by
  fun_induction cdEnd s with
  | case1 s => exact absurd rfl (h 62 (by simp))
  | case2 c s _ ih => exact ih fun x hx => h x (by simp [hx])
  | case3 => rfl

theorem noCdStart_of_no62 {s : Str} (h : ∀ x ∈ s, x ≠ 62) : noCdStart s = true := by
  unfold noCdStart
  split
  · exact absurd rfl (h 62 (by simp))
  · exact absurd rfl (h 62 (by simp))
  · rfl

theorem plainChars_append (a b : Str) : plainChars (a ++ b) = (plainChars a && plainChars b) := by
  simp [plainChars]

theorem esc_ok (s : Str) (hs : s ≠ []) (hc : plainChars s = true) : TextOk (esc false false s) s := by
  have hall : ∀ x ∈ esc false false s, x ≠ 60 ∧ x ≠ 62 := by
    intro x hx
    obtain ⟨c, hcs, hx⟩ := List.mem_flatMap.1 hx
    simp only [plainChars, List.all_eq_true, Bool.and_eq_true, bne_iff_ne, ne_eq] at hc
    exact (unit_facts c (hc c hcs).1 (hc c hcs).2).2.2 x hx
  refine ⟨?_, ?_, fun x hx => (hall x hx).1, cdEnd_of_no62 fun x hx => (hall x hx).2,
    noCdStart_of_no62 fun x hx => (hall x hx).2, ?_⟩
  · cases s with
    | nil => exact absurd rfl hs
    | cons c s =>
      simp only [plainChars, List.all_cons, Bool.and_eq_true, bne_iff_ne, ne_eq] at hc
      have := (unit_facts c hc.1.1 hc.1.2).1
      simp [esc, this]
  · clear hall hs
    induction s with
    | nil => rfl
    | cons c s ih =>
      simp only [plainChars, List.all_cons, Bool.and_eq_true, bne_iff_ne, ne_eq] at hc
      have h1 := (unit_facts c hc.1.1 hc.1.2).2.1
      have h2 := ih hc.2
      simp only [esc, List.flatMap_cons] at h2 ⊢
      rw [plainChars_append, h1, h2]; rfl
  · intro x
    clear hall hs hc
    induction s with
    | nil => simp [esc]
    | cons c s ih =>
      simp only [esc, List.flatMap_cons, List.append_assoc] at ih ⊢
      rw [Escape.decode_unit, ih]
      cases Escape.decode x <;> rfl

theorem decode_plain (c : Nat) (x : Str) (h1 : c ≠ 38) (h2 : c ≠ 60) :
    Escape.decode (c :: x) = (Escape.decode x).map (c :: ·) := by
  rw [Escape.decode]
  all_goals (intros; simp_all)

theorem style_ok (s : Str) (h : styleOk s = true) : TextOk s s := by
  simp only [styleOk, Bool.and_eq_true, Bool.not_eq_true', List.all_eq_true, bne_iff_ne, ne_eq] at h
  obtain ⟨⟨⟨⟨h1, h2⟩, h3⟩, h4⟩, h5⟩ := h
  refine ⟨by intro e; simp [e] at h1, h2, fun c hc => (h3 c hc).1, h4, h5, ?_⟩
  intro x
  clear h1 h2 h4 h5
  induction s with
  | nil => simp
  | cons c s ih =>
    rw [List.cons_append, decode_plain c _ (h3 c (by simp)).2 (h3 c (by simp)).1, ih fun y hy => h3 y (by simp [hy])]
    cases Escape.decode x <;> rfl

theorem cdEnd_append (a b : Str) (ha : cdEnd a = false) (hb : cdEnd b = false) (hs : noCdStart b = true) :
    cdEnd (a ++ b) = false := by
  induction a with
  | nil => exact hb
  | cons c a ih =>
    have ha' : cdEnd a = false := by
      unfold cdEnd at ha
      split at ha
      · cases ha
      · rename_i he
        injection he with _ e2
        rw [e2]; exact ha
      · rename_i he; cases he
    have ih := ih ha'
    rw [List.cons_append]
    unfold cdEnd
    split
    · rename_i s' he
      injection he with e1 e2
      subst e1
      exfalso
      match a, ha, e2 with
      | [], _, e2 =>
        simp only [List.nil_append] at e2
        rw [e2] at hs
        simp [noCdStart] at hs
      | [d], _, e2 =>
        simp only [List.cons_append, List.nil_append, List.cons.injEq] at e2
        rw [e2.2] at hs
        simp [noCdStart] at hs
      | d :: d' :: a', ha, e2 =>
        simp only [List.cons_append, List.cons.injEq] at e2
        rw [e2.1, e2.2.1] at ha
        simp [cdEnd] at ha
    · rename_i he
      injection he with _ e2
      rw [← e2]; exact ih
    · rfl

theorem noCdStart_append (a b : Str) (hne : a ≠ []) (ha : noCdStart a = true) (hb : noCdStart b = true) :
    noCdStart (a ++ b) = true := by
  match a with
  | [] => exact absurd rfl hne
  | [c] =>
    unfold noCdStart
    split
    · rename_i he
      simp only [List.cons_append, List.nil_append, List.cons.injEq] at he
      rw [he.1] at ha; simp [noCdStart] at ha
    · rename_i he
      simp only [List.cons_append, List.nil_append, List.cons.injEq] at he
      rw [he.2] at hb; simp [noCdStart] at hb
    · rfl
  | c :: d :: a =>
    unfold noCdStart
    split
    · rename_i he
      simp only [List.cons_append, List.cons.injEq] at he
      rw [he.1] at ha; simp [noCdStart] at ha
    · rename_i he
      simp only [List.cons_append, List.cons.injEq] at he
      rw [he.1, he.2.1] at ha; simp [noCdStart] at ha
    · rfl

theorem TextOk.append {r v r' v' : Str} (h : TextOk r v) (h' : TextOk r' v') : TextOk (r ++ r') (v ++ v') := by
  refine ⟨by simp [h.ne], by rw [plainChars_append, h.chars, h'.chars]; rfl, ?_, cdEnd_append _ _ h.cd h'.cd h'.start,
    noCdStart_append _ _ h.ne h.start h'.start, ?_⟩
  · intro c hc
    rcases List.mem_append.1 hc with hc | hc
    · exact h.open' c hc
    · exact h'.open' c hc
  · intro x
    rw [List.append_assoc, h.dec, h'.dec]
    cases Escape.decode x <;> simp

mutual
theorem toRaw_ok (n : Laid) (h : LaidOk n) : RawOk (toRaw n) := by
  match n, h with
  | .elem n as ks, h => exact ⟨h.1, h.2.1, toRaws_ok ks h.2.2⟩
  | .text s, h => exact esc_ok s h.1 h.2
  | .style s, h => exact style_ok s h
  | .comment s, h => exact h
  | .pi t d, h => exact h
theorem toRaws_ok (ns : List Laid) (h : LaidsOk ns) : RawsOk (toRaws ns) := by
  match ns, h with
  | [], _ => trivial
  | n :: ns, h =>
    have h1 := toRaw_ok n h.1
    have h2 := toRaws_ok ns h.2
    simp only [toRaws]
    unfold glueRaw
    split
    · rename_i r v r' v' ms e1 e2
      rw [e1] at h1
      rw [e2] at h2
      refine ⟨TextOk.append h1 h2.1, h2.2.1, fun _ => h2.2.2 rfl⟩
    · rename_i hno
      refine ⟨h1, h2, ?_⟩
      intro ht
      cases hn : toRaw n with
      | text r v =>
        cases hms : toRaws ns with
        | nil => rfl
        | cons m ms =>
          cases m with
          | text r' v' => exact absurd hms (hno r v r' v' ms hn)
          | _ => rfl
      | _ => rw [hn] at ht; simp [isRawText] at ht
end

/-! ## Reading the parts -/

theorem lineEnds_id (s : Str) (h : 13 ∉ s) : lineEnds s = s := by
  fun_induction lineEnds s with
  | case1 s ih => exact absurd (by simp) h
  | case2 s _ ih => exact absurd (by simp) h
  | case3 c s _ _ ih => rw [ih (fun hx => h (by simp [hx]))]
  | case4 => rfl

theorem plainChars_no13 {s : Str} (h : plainChars s = true) : 13 ∉ s := by
  simp only [plainChars, List.all_eq_true, Bool.and_eq_true, bne_iff_ne, ne_eq] at h
  exact fun hm => (h 13 hm).2 rfl

theorem plainChars_isChar {s : Str} (h : plainChars s = true) : s.all isChar = true := by
  simp only [plainChars, List.all_eq_true, Bool.and_eq_true] at h ⊢
  exact fun c hc => (h c hc).1

theorem nameStart_nameChar {c : Nat} (h : isNameStart c = true) : isNameChar c = true := by
  simp [isNameChar, h]

theorem takeWhile_append_stop {p : Nat → Bool} {s x : Str} (hs : ∀ c ∈ s, p c = true)
    (hx : ∀ c, x.head? = some c → p c = false) : (s ++ x).takeWhile p = s ∧ (s ++ x).dropWhile p = x := by
  induction s with
  | nil =>
    cases x with
    | nil => exact ⟨rfl, rfl⟩
    | cons c x =>
      have := hx c rfl
      simp [this]
  | cons c s ih =>
    have hc := hs c (by simp)
    have ih := ih fun y hy => hs y (by simp [hy])
    simp [hc, ih.1, ih.2]

theorem readName_append {n x : Str} (hn : isName n = true) (hx : ∀ c, x.head? = some c → isNameChar c = false) :
    readName (n ++ x) = some (n, x) := by
  have hall : ∀ c ∈ n, isNameChar c = true := by
    simp only [isName, Bool.and_eq_true, List.all_eq_true] at hn
    exact hn.2
  obtain ⟨h1, h2⟩ := takeWhile_append_stop hall hx
  unfold readName
  rw [h1, h2, if_pos hn]

theorem name_head {n : Str} (hn : isName n = true) : ∃ c s, n = c :: s ∧ isNameStart c = true := by
  cases n with
  | nil => simp [isName] at hn
  | cons c s =>
    simp only [isName, List.head?_cons, Option.map_some, Option.getD_some, Bool.and_eq_true] at hn
    exact ⟨c, s, rfl, hn.1⟩

theorem nameStart_ne {c : Nat} (h : isNameStart c = true) :
    c ≠ 47 ∧ c ≠ 33 ∧ c ≠ 63 ∧ c ≠ 62 ∧ isS c = false := by
  have h0 : c ≠ 47 ∧ c ≠ 33 ∧ c ≠ 63 ∧ c ≠ 62 ∧ c ≠ 32 ∧ c ≠ 9 ∧ c ≠ 10 ∧ c ≠ 13 := by
    refine ⟨?_, ?_, ?_, ?_, ?_, ?_, ?_, ?_⟩ <;> (rintro rfl; revert h; decide)
  refine ⟨h0.1, h0.2.1, h0.2.2.1, h0.2.2.2.1, ?_⟩
  simp [isS, h0]

theorem isS_not_name {c : Nat} (h : isS c = true) : isNameChar c = false := by
  simp only [isS, Bool.or_eq_true, beq_iff_eq] at h
  rcases h with ((rfl | rfl) | rfl) | rfl <;> decide

theorem upTo_append (q : Nat) (v x : Str) (h : q ∉ v) : upTo q (v ++ q :: x) = some (v, x) := by
  induction v with
  | nil => simp [upTo]
  | cons c v ih =>
    simp only [List.mem_cons, not_or] at h
    have : ¬ c = q := fun e => h.1 e.symm
    simp only [List.cons_append, upTo, this, if_false, ih h.2]
    rfl

theorem mark_cases (sq : Bool) : (mark sq = 34 ∧ sq = false) ∨ (mark sq = 39 ∧ sq = true) := by
  cases sq <;> simp [mark]

theorem valueUnit_facts (sq : Bool) (c : Nat) (hc : isChar c = true) (h13 : c ≠ 13) (h10 : c ≠ 10) (h9 : c ≠ 9) :
    ∀ x ∈ Escape.unit true sq c, x ≠ mark sq ∧ isChar x = true ∧ x ≠ 13 ∧ x ≠ 10 ∧ x ≠ 9 := by
  unfold Escape.unit Escape.escapedChar Escape.amp Escape.gt Escape.lt Escape.quot Escape.apos
  by_cases h1 : c = 38
  · subst h1; cases sq <;> simp [isChar, mark]
  by_cases h2 : c = 62
  · subst h2; cases sq <;> simp [isChar, mark]
  by_cases h3 : c = 60
  · subst h3; cases sq <;> simp [isChar, mark]
  by_cases h4 : c = 34
  · subst h4; cases sq <;> simp [isChar, mark]
  by_cases h5 : c = 39
  · subst h5; cases sq <;> simp [isChar, mark]
  · cases sq <;> simp [h1, h2, h3, h4, h5, mark, hc, h13, h10, h9]

theorem readValue_append (sq : Bool) (v x : Str) (hv : valueChars v = true) :
    readValue (mark sq :: (esc true sq v ++ mark sq :: x)) = some (v, x) := by
  simp only [valueChars, List.all_eq_true, Bool.and_eq_true, bne_iff_ne, ne_eq] at hv
  have hall : ∀ y ∈ esc true sq v, y ≠ mark sq ∧ isChar y = true ∧ y ≠ 13 ∧ y ≠ 10 ∧ y ≠ 9 := by
    intro y hy
    obtain ⟨c, hc, hy⟩ := List.mem_flatMap.1 hy
    obtain ⟨⟨⟨a1, a2⟩, a3⟩, a4⟩ := hv c hc
    exact valueUnit_facts sq c a1 a2 a3 a4 y hy
  have hq : (decide (mark sq = 34) || decide (mark sq = 39)) = true := by cases sq <;> rfl
  have hup := upTo_append (mark sq) (esc true sq v) x (fun hm => (hall _ hm).1 rfl)
  have hc : (esc true sq v).all isChar = true := by
    simp only [List.all_eq_true]
    exact fun y hy => (hall y hy).2.1
  have hl : lineEnds (esc true sq v) = esc true sq v := lineEnds_id _ fun hm => (hall _ hm).2.2.1 rfl
  have hb : (esc true sq v).map blankOut = esc true sq v := by
    conv => rhs; rw [← List.map_id (esc true sq v)]
    apply List.map_congr_left
    intro y hy
    have := hall y hy
    unfold blankOut isS
    by_cases h32 : y = 32
    · simp [h32]
    · simp [h32, this]
  have hd : Escape.decode (esc true sq v) = some v := by
    have := Escape.escape_round_trip true sq v
    rw [Escape.writeEscaped_eq] at this
    simpa [esc] using this
  simp only [readValue, hq, if_true, hup, hc, hl, hb, hd]

theorem readAttributes_succ (f : Nat) (s : Str) {c : Nat} {r : Str} (hd : s.dropWhile isS = c :: r) :
    readAttributes (f + 1) s =
      (if c == 62 || c == 47 then some ([], c :: r)
      else if !((s.head?.map isS).getD false) then none
      else (readAttribute (c :: r)).bind fun x => (readAttributes f x.2).bind fun y => some (x.1 :: y.1, y.2)) := by
  rw [readAttributes, hd, attributesStep]

theorem readAttributes_append (sq : Bool) : ∀ (as : List (Str × Str × Str)) (x : Str) (f : Nat), AttrsOk as →
    (∃ c r, x = c :: r ∧ (c = 62 ∨ c = 47)) → as.length < f →
    readAttributes f (showAttrs sq as ++ x) = some (as.map (·.2), x) := by
  intro as
  induction as with
  | nil =>
    intro x f _ hx hf
    obtain ⟨c, r, rfl, hc⟩ := hx
    obtain ⟨f, rfl⟩ : ∃ g, f = g + 1 := ⟨f - 1, by simp only [List.length_nil] at hf; omega⟩
    have hs : isS c = false := by rcases hc with rfl | rfl <;> rfl
    have hd : (c :: r).dropWhile isS = c :: r := by rw [List.dropWhile_cons, hs]; rfl
    have h1 : (c == 62 || c == 47) = true := by rcases hc with rfl | rfl <;> rfl
    rw [showAttrs, List.flatMap_nil, List.nil_append, readAttributes_succ f _ hd, if_pos h1]
    rfl
  | cons a as ih =>
    intro x f hok hx hf
    obtain ⟨f, rfl⟩ : ∃ g, f = g + 1 := ⟨f - 1, by rw [List.length_cons] at hf; omega⟩
    obtain ⟨sep, n, v⟩ := a
    have hsep := hok.sep (sep, n, v) List.mem_cons_self
    have hn := hok.name (sep, n, v) List.mem_cons_self
    have hv := hok.value (sep, n, v) List.mem_cons_self
    have hok' : AttrsOk as := ⟨fun a ha => hok.sep a (List.mem_cons_of_mem _ ha), fun a ha => hok.name a (List.mem_cons_of_mem _ ha),
      fun a ha => hok.value a (List.mem_cons_of_mem _ ha), by
        have := hok.distinct
        rw [List.map_cons, List.nodup_cons] at this
        exact this.2⟩
    dsimp only at hsep hn hv
    have hstr : showAttrs sq ((sep, n, v) :: as) ++ x =
        sep ++ (n ++ (61 :: (mark sq :: (esc true sq v ++ mark sq :: (showAttrs sq as ++ x))))) := by
      simp [showAttrs, showAttr, eqs]
    rw [hstr]
    have hattr : readAttribute (n ++ (61 :: (mark sq :: (esc true sq v ++ mark sq :: (showAttrs sq as ++ x))))) =
        some ((n, v), showAttrs sq as ++ x) := by
      unfold readAttribute
      rw [readName_append hn (by intro d hd; simp only [List.head?_cons, Option.some.injEq] at hd; rw [← hd]; decide)]
      have hm : isS (mark sq) = false := by cases sq <;> rfl
      have h61 : isS 61 = false := rfl
      simp only [List.dropWhile_cons, h61, hm, Bool.false_eq_true, if_false, readValue_append sq v _ hv]
    have ih := ih x f hok' hx (by rw [List.length_cons] at hf; omega)
    generalize (61 :: (mark sq :: (esc true sq v ++ mark sq :: (showAttrs sq as ++ x)))) = tail at hattr ⊢
    obtain ⟨c, n', hn', hc⟩ := name_head hn
    have hne := nameStart_ne hc
    have hdrop : (sep ++ (n ++ tail)).dropWhile isS = c :: (n' ++ tail) := by
      rw [(takeWhile_append_stop (s := sep) (x := n ++ tail) hsep.2 (by
          rw [hn']
          intro d hd
          rw [List.cons_append, List.head?_cons, Option.some.injEq] at hd
          rw [← hd]; exact hne.2.2.2.2)).2, hn', List.cons_append]
    obtain ⟨s0, sep', hsep0⟩ : ∃ s0 sep', sep = s0 :: sep' := by
      cases sep with
      | nil => exact absurd rfl hsep.1
      | cons s0 sep' => exact ⟨s0, sep', rfl⟩
    have hs0 : isS s0 = true := hsep.2 s0 (by rw [hsep0]; exact List.mem_cons_self)
    have hhead : ¬ (!(((sep ++ (n ++ tail)).head?.map isS).getD false)) = true := by
      rw [hsep0, List.cons_append, List.head?_cons, Option.map_some, Option.getD_some, hs0]
      decide
    have h1 : ¬ (c == 62 || c == 47) = true := by
      rw [Bool.or_eq_true, beq_iff_eq, beq_iff_eq]
      exact fun h => h.elim hne.2.2.2.1 hne.1
    rw [readAttributes_succ f _ hdrop, if_neg h1, if_neg hhead, ← List.cons_append, ← hn', hattr, Option.bind_some, ih, Option.bind_some]
    rfl

theorem distinctNames_ok {as : List (Str × Str × Str)} (h : (as.map (·.2.1)).Nodup) : distinctNames (as.map (·.2)) = true := by
  induction as with
  | nil => rfl
  | cons a as ih =>
    rw [List.map_cons, List.nodup_cons] at h
    simp only [List.map_cons, distinctNames, ih h.2, Bool.and_true, List.all_eq_true, bne_iff_ne, ne_eq]
    intro b hb
    obtain ⟨b', hb', rfl⟩ := List.mem_map.1 hb
    exact fun e => h.1 (by rw [← e]; exact List.mem_map.2 ⟨b', hb', rfl⟩)

theorem readComment_append (s x : Str) (h : commentOk s = true) :
    readComment (s ++ 45 :: 45 :: 62 :: x) = some (s, x) ∧ s.all isChar = true ∧ 13 ∉ s := by
  fun_induction commentOk s with
  | case1 => cases h
  | case2 => cases h
  | case3 c s h1 h2 ih =>
    simp only [Bool.and_eq_true, bne_iff_ne, ne_eq] at h
    obtain ⟨i1, i2, i3⟩ := ih h.2
    refine ⟨?_, ?_, ?_⟩
    · rw [List.cons_append, readComment, i1]
      · rfl
      · intro y hc he
        subst hc
        cases s with
        | nil => exact h2 rfl rfl
        | cons d s =>
          simp only [List.cons_append, List.cons.injEq] at he
          exact h1 s rfl (by rw [he.1])
      · intro y hc he
        subst hc
        cases s with
        | nil => exact h2 rfl rfl
        | cons d s =>
          simp only [List.cons_append, List.cons.injEq] at he
          exact h1 s rfl (by rw [he.1])
    · rw [List.all_cons, h.1.1, i2]; rfl
    · simp only [List.mem_cons, not_or]
      exact ⟨fun e => h.1.2 e.symm, i3⟩
  | case4 => exact ⟨rfl, rfl, by simp⟩

theorem upToPi_append (s x : Str) (h : upToPi s = none) : upToPi (s ++ 63 :: 62 :: x) = some (s, x) := by
  fun_induction upToPi s with
  | case1 => cases h
  | case2 c s hne ih =>
    simp only [Option.map_eq_none_iff] at h
    rw [List.cons_append, upToPi, ih h]
    · rfl
    · intro y hc he
      subst hc
      cases s with
      | nil => simp at he
      | cons d s =>
        simp only [List.cons_append, List.cons.injEq] at he
        exact hne s rfl (by rw [he.1])
  | case3 => rfl

theorem readPi_append (t : Str) (d : Option Str) (x : Str) (ht : isName t = true) (hx : isXmlTarget t = false)
    (hd : piOk d = true) : readPi (t ++ (piData d ++ 63 :: 62 :: x)) = some (.pi t d, x) := by
  unfold readPi
  cases d with
  | none =>
    simp only [piData, List.nil_append]
    rw [readName_append ht (by intro c hc; simp at hc; rw [← hc]; decide)]
    have := upToPi_append [] x rfl
    simp only [List.nil_append] at this
    simp [hx, this, piValue]
  | some d =>
    cases d with
    | nil => simp [piOk] at hd
    | cons c s =>
      simp only [piOk, Bool.and_eq_true, Bool.not_eq_true', Option.isNone_iff_eq_none] at hd
      obtain ⟨⟨h1, h2⟩, h3⟩ := hd
      simp only [piData, List.cons_append]
      rw [readName_append ht (by intro c hc; simp [sp] at hc; rw [← hc]; decide)]
      have hup : upToPi (sp :: c :: s) = none := by
        rw [upToPi, h3]
        · rfl
        · intro y hc he; simp [sp] at hc
      have := upToPi_append (sp :: c :: s) x hup
      simp only [List.cons_append] at this
      have hch : (sp :: c :: s).all isChar = true := by
        rw [List.all_cons, plainChars_isChar h2]; rfl
      have hdw : (c :: s).dropWhile isS = c :: s := by simp [h1]
      have hsp : isS sp = true := rfl
      simp only [hx, this, hch, piValue, hsp, hdw, lineEnds_id _ (plainChars_no13 h2), if_true, Bool.false_eq_true, if_false,
        List.isEmpty_cons]

theorem readText_ok {r v : Str} (h : TextOk r v) : readText r = some (.text v) := by
  have hd := h.dec []
  simp only [List.append_nil, Escape.decode, Option.map_some] at hd
  unfold readText
  rw [plainChars_isChar h.chars, h.cd, lineEnds_id _ (plainChars_no13 h.chars), hd]
  rfl

/-! ## Reading the whole -/

/-- What may stand after content. -/
def Stops (x : Str) : Prop := x = [] ∨ ∃ r, x = 60 :: 47 :: r

theorem tagStep_elem {next attrs} {c : Nat} {s : Str} (h : isNameStart c = true) :
    tagStep next attrs (c :: s) = elementStep next attrs (c :: s) := by
  have hne := nameStart_ne h
  unfold tagStep
  split
  · rename_i e; injection e with e _; exact absurd e hne.1
  · rename_i e; injection e with e _; exact absurd e hne.2.1
  · rename_i e; injection e with e _; exact absurd e hne.2.2.1
  · rfl

theorem showAttrs_length (sq : Bool) (as : List (Str × Str × Str)) : as.length ≤ (showAttrs sq as).length := by
  induction as with
  | nil => simp
  | cons a as ih =>
    simp only [showAttrs, List.flatMap_cons, List.length_append, List.length_cons] at ih ⊢
    have : 1 ≤ (showAttr sq a).length := by simp [showAttr]; omega
    omega

theorem showAttrs_head (sq : Bool) {as : List (Str × Str × Str)} (h : AttrsOk as) (x : Str)
    (hx : ∃ c r, x = c :: r ∧ (c = 62 ∨ c = 47)) : ∀ c, (showAttrs sq as ++ x).head? = some c → isNameChar c = false := by
  intro c hc
  cases as with
  | nil =>
    obtain ⟨d, r, rfl, hd⟩ := hx
    simp only [showAttrs, List.flatMap_nil, List.nil_append, List.head?_cons, Option.some.injEq] at hc
    rw [← hc]
    rcases hd with rfl | rfl <;> decide
  | cons a as =>
    have hs := h.sep a List.mem_cons_self
    obtain ⟨sep, n, v⟩ := a
    cases sep with
    | nil => exact absurd rfl hs.1
    | cons s0 sep =>
      simp only [showAttrs, List.flatMap_cons, showAttr, List.cons_append, List.head?_cons, Option.some.injEq] at hc
      rw [← hc]
      exact isS_not_name (hs.2 s0 List.mem_cons_self)

theorem readEnd_append {n : Str} (hn : isName n = true) (x : Str) : readEnd n (60 :: 47 :: (n ++ 62 :: x)) = some x := by
  rw [readEnd, readName_append hn (by intro d hd; simp only [List.head?_cons, Option.some.injEq] at hd; rw [← hd]; decide),
    Option.bind_some, if_pos (by simp)]
  rfl

theorem readContent_stop (f : Nat) {x : Str} (h : Stops x) : readContent (f + 1) x = some ([], x) := by
  rcases h with rfl | ⟨r, rfl⟩ <;> rfl

theorem show_starts (sq sc : Bool) {n : Raw} (h : RawOk n) (ht : isRawText [n] = false) :
    ∃ r, showRaw sq sc n = 60 :: r := by
  cases n with
  | elem n as ks =>
    simp only [showRaw]
    split <;> exact ⟨_, rfl⟩
  | text r v => simp [isRawText] at ht
  | comment s => exact ⟨_, rfl⟩
  | pi t d => exact ⟨_, rfl⟩

theorem shows_head (sq sc : Bool) {ns : List Raw} (h : RawsOk ns) (ht : isRawText ns = false) {x : Str} (hx : Stops x) :
    ∀ c, (showRaws sq sc ns ++ x).head? = some c → c = 60 := by
  intro c hc
  cases ns with
  | nil =>
    rcases hx with rfl | ⟨r, rfl⟩
    · simp [showRaws] at hc
    · simp [showRaws] at hc; exact hc.symm
  | cons n ns =>
    obtain ⟨r, hr⟩ := show_starts sq sc (n := n) h.1 (by cases n <;> first | rfl | simp [isRawText] at ht)
    simp only [showRaws, hr, List.cons_append, List.head?_cons, Option.some.injEq] at hc
    exact hc.symm

/-- Reading an element. -/
theorem read_elem (sq sc : Bool) (n : Str) (as : List (Str × Str × Str)) (ks : List Raw) (y : Str) (f : Nat)
    (hn : isName n = true) (ha : AttrsOk as) (hf : (showRaw sq sc (.elem n as ks)).length ≤ f)
    (ihk : ∀ x, Stops x → (showRaws sq sc ks).length < f → readContent f (showRaws sq sc ks ++ x) = some (docsOf ks, x)) :
    readContent (f + 1) (showRaw sq sc (.elem n as ks) ++ y) =
      andThen (fun r => readContent f r) (.elem n (as.map (·.2)) (docsOf ks)) y := by
  obtain ⟨c, n', hn', hc⟩ := name_head hn
  have hal := showAttrs_length sq as
  by_cases hsc : (ks.isEmpty && sc) = true
  · rw [showRaw, if_pos hsc] at hf ⊢
    have hks : ks = [] := by
      rw [Bool.and_eq_true, List.isEmpty_iff] at hsc; exact hsc.1
    have e1 : [lt] ++ n ++ showAttrs sq as ++ [slash, gt] ++ y = 60 :: (n ++ (showAttrs sq as ++ (47 :: 62 :: y))) := by
      simp [lt, slash, gt]
    have hfl : as.length < f := by
      simp only [List.length_append, List.length_cons, List.length_nil] at hf; omega
    rw [e1, readContent, contentStep, if_pos (by rfl)]
    rw [hn', List.cons_append, tagStep_elem hc, ← List.cons_append, ← hn', elementStep,
      readName_append hn (showAttrs_head sq ha _ ⟨47, _, rfl, Or.inr rfl⟩), Option.bind_some,
      readAttributes_append sq as _ f ha ⟨47, _, rfl, Or.inr rfl⟩ hfl, Option.bind_some, distinctNames_ok ha.distinct,
      if_pos rfl, bodyStep, hks]
    rfl
  · rw [showRaw, if_neg hsc] at hf ⊢
    have e1 : [lt] ++ n ++ showAttrs sq as ++ [gt] ++ showRaws sq sc ks ++ [lt, slash] ++ n ++ [gt] ++ y =
        60 :: (n ++ (showAttrs sq as ++ (62 :: (showRaws sq sc ks ++ (60 :: 47 :: (n ++ 62 :: y)))))) := by
      simp [lt, slash, gt]
    have hfl : as.length < f ∧ (showRaws sq sc ks).length < f := by
      simp only [List.length_append, List.length_cons, List.length_nil] at hf
      exact ⟨by omega, by omega⟩
    rw [e1, readContent, contentStep, if_pos (by rfl)]
    rw [hn', List.cons_append, tagStep_elem hc, ← List.cons_append, ← hn', elementStep,
      readName_append hn (showAttrs_head sq ha _ ⟨62, _, rfl, Or.inl rfl⟩), Option.bind_some,
      readAttributes_append sq as _ f ha ⟨62, _, rfl, Or.inl rfl⟩ hfl.1, Option.bind_some, distinctNames_ok ha.distinct,
      if_pos rfl, bodyStep, ihk _ (Or.inr ⟨_, rfl⟩) hfl.2, Option.bind_some, readEnd_append hn, Option.bind_some]

mutual
theorem read_one (sq sc : Bool) (n : Raw) (h : RawOk n) (y : Str) (f : Nat)
    (hy : isRawText [n] = true → ∀ c, y.head? = some c → c = 60) (hf : (showRaw sq sc n).length ≤ f) :
    readContent (f + 1) (showRaw sq sc n ++ y) = andThen (fun r => readContent f r) (docOf n) y := by
  match n, h with
  | .elem n as ks, h =>
    exact read_elem sq sc n as ks y f h.1 h.2.1 hf fun x hx hl => read_all sq sc ks h.2.2 x hx f hl
  | .text r v, h =>
    have h : TextOk r v := h
    obtain ⟨c, r', hr⟩ : ∃ c r', r = c :: r' := by
      cases r with
      | nil => exact absurd rfl h.ne
      | cons c r' => exact ⟨c, r', rfl⟩
    have hc : ¬ (c == 60) = true := by
      rw [beq_iff_eq]; exact h.open' c (by rw [hr]; exact List.mem_cons_self)
    obtain ⟨t1, t2⟩ := takeWhile_append_stop (p := fun c => c != 60) (s := r) (x := y)
      (fun c hc => bne_iff_ne.2 (h.open' c hc)) (fun c hc => by rw [hy rfl c hc]; rfl)
    rw [showRaw, docOf, readContent]
    conv => lhs; rw [hr, List.cons_append]
    rw [contentStep, if_neg hc, ← List.cons_append, ← hr, textStep, t1, t2, readText_ok h, Option.bind_some]
  | .comment s, h =>
    have h : commentOk s = true := h
    obtain ⟨h1, h2, h3⟩ := readComment_append s y h
    have e1 : [lt, bang, dash, dash] ++ s ++ [dash, dash, gt] ++ y = 60 :: 33 :: 45 :: 45 :: (s ++ 45 :: 45 :: 62 :: y) := by
      simp [lt, bang, dash, gt]
    rw [showRaw, docOf, e1, readContent, contentStep, if_pos (by rfl), tagStep, commentStep, h1, Option.bind_some, h2, if_pos rfl,
      lineEnds_id s h3]
  | .pi t d, h =>
    have e1 : [lt, quest] ++ t ++ piData d ++ [quest, gt] ++ y = 60 :: 63 :: (t ++ (piData d ++ 63 :: 62 :: y)) := by
      simp [lt, quest, gt]
    rw [showRaw, docOf, e1, readContent, contentStep, if_pos (by rfl), tagStep, readPi_append t d y h.1 h.2.1 h.2.2, Option.bind_some]
theorem read_all (sq sc : Bool) (ns : List Raw) (h : RawsOk ns) (x : Str) (hx : Stops x) (f : Nat)
    (hf : (showRaws sq sc ns).length < f) : readContent f (showRaws sq sc ns ++ x) = some (docsOf ns, x) := by
  match ns, h with
  | [], _ =>
    obtain ⟨f, rfl⟩ : ∃ g, f = g + 1 := ⟨f - 1, by omega⟩
    exact readContent_stop f hx
  | n :: ns, h =>
    obtain ⟨f, rfl⟩ : ∃ g, f = g + 1 := ⟨f - 1, by omega⟩
    have hlen : 1 ≤ (showRaw sq sc n).length := by
      cases n with
      | text r v =>
        have h : TextOk r v := h.1
        have := h.ne
        cases r with
        | nil => exact absurd rfl this
        | cons c r => simp [showRaw]
      | elem n as ks => obtain ⟨r, hr⟩ := show_starts sq sc h.1 rfl; rw [hr]; simp
      | comment s => obtain ⟨r, hr⟩ := show_starts sq sc h.1 rfl; rw [hr]; simp
      | pi t d => obtain ⟨r, hr⟩ := show_starts sq sc h.1 rfl; rw [hr]; simp
    rw [showRaws, List.length_append] at hf
    rw [showRaws, List.append_assoc, read_one sq sc n h.1 _ f (fun ht => shows_head sq sc h.2.1 (h.2.2 ht) hx) (by omega), andThen,
      read_all sq sc ns h.2.1 x hx f (by omega)]
    rfl
end

/-- What is read from a tree with all its white space. -/
theorem readContent_show (sq sc : Bool) (ns : List Laid) (h : LaidsOk ns) :
    readContent ((showAll sq sc ns).length + 1) (showAll sq sc ns) = some (docsOf (toRaws ns), []) := by
  have := read_all sq sc (toRaws ns) (toRaws_ok ns h) [] (Or.inl rfl) ((showAll sq sc ns).length + 1) (by rw [show_toRaws]; omega)
  rwa [List.append_nil, show_toRaws] at this

end Verif.Xml
