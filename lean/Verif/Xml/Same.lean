import Verif.Xml.Keep

/-!
# Documents that are read back as they were
-/

namespace Verif.Xml

set_option linter.unusedSectionVars false

variable {E A : Type}

/-! ## Tidy texts -/

theorem splitWhitespace_sp (s : Str) : splitWhitespace (sp :: s) = splitWhitespace s := by
  have hsp : isWhitespace sp = true := rfl
  simp only [splitWhitespace, splitGo, hsp, if_true]
  rfl

/-- A space if the condition holds. -/
def spIf (b : Bool) : Str := if b then [sp] else []

theorem leading_cons (c : Nat) (s : Str) : leading (c :: s) = isWhitespace c := rfl

theorem trailing_cons (c : Nat) {s : Str} (h : s ≠ []) : trailing (c :: s) = trailing s := by
  unfold trailing
  cases s with
  | nil => exact absurd rfl h
  | cons d s => simp

theorem joinWords_cons (c : Nat) (w : Str) (ws : List Str) : joinWords ((c :: w) :: ws) = c :: joinWords (w :: ws) := by
  simp [joinWords]

theorem joinWords_first (c : Nat) {ws : List Str} (h : ws ≠ []) : joinWords ([c] :: ws) = c :: sp :: joinWords ws := by
  cases ws with
  | nil => exact absurd rfl h
  | cons w ws => simp [joinWords]

theorem tidy_parts (s : Str) (h : singleSpaced s = true) (hw : s.all isWhitespace = false) :
    spIf (leading s) ++ joinWords (splitWhitespace s) ++ spIf (trailing s) = s := by
  induction s with
  | nil => simp at hw
  | cons c s ih =>
    by_cases hc : isWhitespace c = true
    · cases s with
      | nil => simp [hc] at hw
      | cons d s =>
        simp only [singleSpaced, hc, Bool.not_true, Bool.false_or, Bool.and_eq_true, beq_iff_eq, Bool.not_eq_true'] at h
        obtain ⟨⟨rfl, hd⟩, h⟩ := h
        have ih := ih h (by simp [hd])
        have hl : leading (d :: s) = false := by rw [leading_cons]; exact hd
        have e : (32 : Nat) :: d :: s = sp :: (d :: s) := rfl
        rw [e, splitWhitespace_sp, trailing_cons sp (List.cons_ne_nil d s)]
        rw [hl] at ih
        have : leading (sp :: d :: s) = true := rfl
        rw [this]
        simpa [spIf] using ih
    · have hcf : isWhitespace c = false := by simpa using hc
      have hl : leading (c :: s) = false := by rw [leading_cons]; exact hcf
      rw [hl]
      cases s with
      | nil =>
        have h1 : splitWhitespace [c] = [[c]] := by simp [splitWhitespace, splitGo, hcf]
        have h2 : trailing [c] = false := by simp [trailing, hcf]
        rw [h1, h2]
        simp [spIf, joinWords]
      | cons d s =>
        have hs : singleSpaced (d :: s) = true := by
          simp only [singleSpaced, hcf, Bool.not_false, Bool.true_or, Bool.true_and] at h
          exact h
        rw [trailing_cons c (List.cons_ne_nil d s)]
        by_cases hb : (d :: s).all isWhitespace = true
        · have hds : d :: s = [sp] := by
            cases s with
            | nil =>
              simp only [List.all_cons, List.all_nil, Bool.and_true] at hb
              simp only [singleSpaced, hb, Bool.not_true, Bool.false_or, beq_iff_eq] at hs
              rw [hs]; rfl
            | cons d' s =>
              simp only [List.all_cons, Bool.and_eq_true] at hb
              simp [singleSpaced, hb.1, hb.2.1] at hs
          rw [hds]
          have hsp : isWhitespace sp = true := rfl
          have h1 : splitWhitespace [c, sp] = [[c]] := by simp [splitWhitespace, splitGo, hcf, hsp]
          have h2 : trailing [sp] = true := rfl
          rw [h1, h2]
          simp [spIf, joinWords]
        · have ih := ih hs (by simpa using hb)
          by_cases hd : isWhitespace d = true
          · have hl' : leading (d :: s) = true := by rw [leading_cons]; exact hd
            rw [hl'] at ih
            have hne : splitWhitespace (d :: s) ≠ [] := fun e => hb ((splitWhitespace_nil _).1 e)
            have h1 : splitWhitespace (c :: d :: s) = [c] :: splitWhitespace (d :: s) := by
              simp only [splitWhitespace, splitGo, hcf, hd, if_true, Bool.false_eq_true, if_false]
              simp
            rw [h1, joinWords_first c hne]
            simp only [spIf, if_true, Bool.false_eq_true, if_false, List.nil_append, List.cons_append] at ih ⊢
            rw [ih]
          · have hdf : isWhitespace d = false := by simpa using hd
            have hl' : leading (d :: s) = false := by rw [leading_cons]; exact hdf
            rw [hl'] at ih
            have h0 : splitWhitespace (d :: s) = (d :: (splitGo s).1) :: (splitGo s).2 := by
              simp only [splitWhitespace, splitGo, hdf, Bool.false_eq_true, if_false]
              simp
            have h1 : splitWhitespace (c :: d :: s) = (c :: d :: (splitGo s).1) :: (splitGo s).2 := by
              simp only [splitWhitespace, splitGo, hcf, hdf, Bool.false_eq_true, if_false]
              simp
            rw [h0] at ih
            rw [h1, joinWords_cons]
            simp only [spIf, Bool.false_eq_true, if_false, List.nil_append, List.cons_append] at ih ⊢
            rw [ih]

theorem single_lead {s : Str} (h : singleSpaced s = true) (hl : leading s = true) : s.head? = some 32 := by
  match s with
  | [] => simp [leading] at hl
  | [c] =>
    rw [leading_cons] at hl
    simp only [singleSpaced, hl, Bool.not_true, Bool.false_or, beq_iff_eq] at h
    rw [h]; rfl
  | c :: d :: s =>
    rw [leading_cons] at hl
    simp only [singleSpaced, hl, Bool.not_true, Bool.false_or, Bool.and_eq_true, beq_iff_eq] at h
    rw [h.1.1]; rfl

theorem single_trail {s : Str} (h : singleSpaced s = true) (ht : trailing s = true) : s.getLast? = some 32 := by
  induction s with
  | nil => simp [trailing] at ht
  | cons c s ih =>
    cases s with
    | nil =>
      have hc : isWhitespace c = true := by simpa [trailing] using ht
      simp only [singleSpaced, hc, Bool.not_true, Bool.false_or, beq_iff_eq] at h
      rw [h]; rfl
    | cons d s =>
      rw [trailing_cons c (List.cons_ne_nil d s)] at ht
      simp only [singleSpaced, Bool.and_eq_true] at h
      rw [← ih h.2 ht]
      simp

/-- Tidy texts are left alone. -/
theorem collapse_tidy (o : Options) (ho : o.indent = .none) {first last : Bool} {s : Str} (h : Tidy first last s) :
    collapse o first last s = s := by
  have hw : s.all isWhitespace = false := by
    cases hb : s.all isWhitespace with
    | false => rfl
    | true => exact absurd ((words_nil s).2 hb) h.word
  have h1 : (!first && o.indent == Indent.none && leading s) = leading s := by
    rw [ho]
    cases first with
    | false => rfl
    | true =>
      cases hl : leading s with
      | false => rfl
      | true => exact absurd (single_lead h.single hl) (h.start rfl)
  have h2 : (!last && o.indent == Indent.none && trailing s) = trailing s := by
    rw [ho]
    cases last with
    | false => rfl
    | true =>
      cases hl : trailing s with
      | false => rfl
      | true => exact absurd (single_trail h.single hl) (h.stop rfl)
  unfold collapse
  rw [h1, h2]
  exact tidy_parts s h.single hw

/-! ## Trees -/

theorem gap_none (o : Options) (ho : o.indent = .none) (p t : Bool) (d : Nat) : gap o p t d = [] := by
  simp [gap, ho]

theorem layKids_none (o : Options) (ho : o.indent = .none) (p t textual : Bool) (d : Nat) (items : List Laid) :
    layKids o p t textual d items = items := by
  unfold layKids
  rw [gap_none o ho]
  split
  · rename_i h
    rw [Bool.and_eq_true, List.isEmpty_iff] at h
    exact h.1.symm
  · split <;> simp [mkText]

theorem layAttrs_quiet (V : View E A) (o : Options) (t : Bool) (d : Nat) (p : Bool) (as : List A)
    (h : ∀ a ∈ as, Quiet V o p a) : (layAttrs V o t d p as).2 = p := by
  induction as with
  | nil => rfl
  | cons a as ih =>
    have ha : spaceAfter V o p a = p := by
      unfold spaceAfter
      split
      · rename_i hauto
        rcases h a List.mem_cons_self hauto with e | e <;> rw [e] <;> rfl
      · rfl
    simp only [layAttrs, ha]
    exact ih fun b hb => h b (List.mem_cons_of_mem _ hb)

theorem docs_text (r s : Str) (hs : s ≠ []) (R : List Raw) : docsOf (glueRaw (.text r s) R) = addText s (docsOf R) := by
  cases s with
  | nil => exact absurd rfl hs
  | cons c s =>
    cases R with
    | nil => rfl
    | cons m ms => cases m <;> rfl

theorem layText_same (o : Options) (ho : o.indent = .none) (p t : Bool) (d : Nat) (first last : Bool) {s : Str} (hs : s ≠ [])
    (hd : d ≠ 0) (h : Settled (treatment o p) first last s) : layText o p t d first last s = .ok [.text s] := by
  have hm : mode o p = treatment o p := rfl
  unfold layText
  rw [hm, gap_none o ho]
  generalize treatment o p = m at h
  cases m with
  | never => simp [hd, mkText]
  | auto => exact absurd h id
  | standard =>
    rcases h with h | h
    · exact absurd h hs
    · have hw : ¬ s.all isWhitespace = true := fun e => h.word ((words_nil s).2 e)
      rw [collapse_tidy o ho h]
      dsimp only
      rw [if_neg hw, if_neg hd]
      rfl
  | preserve =>
    have hf : s.map flatten = s := by
      conv => rhs; rw [← List.map_id s]
      apply List.map_congr_left
      intro c hc
      have := h c hc
      simp [flatten, nl, tab, this]
    dsimp only
    rw [if_neg hd, hf]

mutual
theorem layNode_same (V : View E A) (o : Options) (ho : o.indent = .none) (t : Bool) (d : Nat) (first last fresh p : Bool)
    (n : XNode E A) (h : SrcOk V n) (hd : d = 0 → n.textlike = false) (hq : SettledNode V o p first last n) :
    ∃ items, layNode V o t d first last fresh p n = .ok (items, p) ∧
      ∀ rest, docsOf (toRaws (items ++ rest)) = asReadNode V (docsOf (toRaws rest)) n := by
  match n, h, hq with
  | .elem e as ks, h, hq =>
    have hp := layAttrs_quiet V o (V.textual e || t) d p as hq.1
    obtain ⟨items, h1, h2⟩ := layAll_same V o ho (V.textual e || t) (d + 1) false true false p ks h.2 (by simp) hq.2
    have hgap : gapText o fresh p t d = [] := by
      unfold gapText
      rw [gap_none o ho]
      split <;> rfl
    refine ⟨[.elem (V.ename e) (layAttrs V o (V.textual e || t) d p as).1 items], ?_, ?_⟩
    · simp only [layNode, hp, h1, hgap, layKids_none o ho, List.nil_append]
    · intro rest
      simp only [List.cons_append, List.nil_append, toRaws, toRaw, glueRaw, docsOf, docOf, asReadNode, h2, layAttrs_pairs]
  | .text s, h, hq =>
    have hd0 : d ≠ 0 := fun e => by simpa [XNode.textlike] using hd e
    cases s with
    | nil => exact ⟨[], rfl, fun rest => rfl⟩
    | cons c s =>
      have h1 := layText_same o ho p t d first last (s := c :: s) (List.cons_ne_nil _ _) hd0 hq
      refine ⟨[.text (c :: s)], ?_, ?_⟩
      · simp only [layNode, h1]
        rfl
      · intro rest
        rw [List.cons_append, List.nil_append, toRaws, toRaw, docs_text _ _ (List.cons_ne_nil _ _), asReadNode]
  | .style s, h, _ =>
    have hd0 : d ≠ 0 := fun e => by simpa [XNode.textlike] using hd e
    cases s with
    | nil => exact ⟨[], rfl, fun rest => rfl⟩
    | cons c s =>
      refine ⟨[.style (c :: s)], ?_, ?_⟩
      · simp only [layNode, gap_none o ho]
        simp [hd0, mkText]
      · intro rest
        rw [List.cons_append, List.nil_append, toRaws, toRaw, docs_text _ _ (List.cons_ne_nil _ _), asReadNode]
  | .comment s, h, _ =>
    have hgap : gapText o fresh p t d = [] := by
      unfold gapText
      rw [gap_none o ho]
      split <;> rfl
    exact ⟨[.comment s], by simp only [layNode, hgap]; rfl, fun rest => rfl⟩
  | .pi _ _, h, _ => exact absurd h id
theorem layAll_same (V : View E A) (o : Options) (ho : o.indent = .none) (t : Bool) (d : Nat) (prevText start fresh p : Bool)
    (ns : List (XNode E A)) (h : SrcsOk V ns) (hd : d = 0 → ∀ n ∈ ns, n.textlike = false)
    (hq : SettledAll V o p (start || prevText) ns) :
    ∃ items, layAll V o t d prevText start fresh p ns = .ok (items, p) ∧ docsOf (toRaws items) = asRead V ns := by
  match ns, h, hq with
  | [], _, _ => exact ⟨[], rfl, rfl⟩
  | n :: ns, h, hq =>
    obtain ⟨i1, h1, h2⟩ := layNode_same V o ho t d (start || prevText)
      (ns.isEmpty || (ns.head?.map XNode.isText).getD false) fresh p n h.1 (fun e => hd e n List.mem_cons_self) hq.1
    obtain ⟨i2, h3, h4⟩ := layAll_same V o ho t d n.isText false (fresh && i1.isEmpty) p ns h.2
      (fun e m hm => hd e m (List.mem_cons_of_mem _ hm)) (by rw [Bool.false_or]; exact hq.2)
    refine ⟨i1 ++ i2, ?_, ?_⟩
    · simp only [layAll, h1, h3]
    · rw [h2, h4, asRead]
end

/-! ## The top level -/

/-- Only white space for texts. -/
def Airy (items : List Laid) : Prop := ∀ x ∈ items, ∀ s, laidText x = some s → s.all isS = true

theorem Airy.append {a b : List Laid} (ha : Airy a) (hb : Airy b) : Airy (a ++ b) := by
  intro x hx
  rcases List.mem_append.1 hx with hx | hx
  · exact ha x hx
  · exact hb x hx

theorem airy_mkText (o : Options) (p t : Bool) (d : Nat) : Airy (mkText (gap o p t d)) := by
  unfold mkText
  intro x hx s hs
  split at hx
  · cases hx
  · rw [List.mem_singleton.1 hx] at hs
    simp only [laidText, Option.some.injEq] at hs
    rw [← hs, List.all_eq_true]
    exact gap_space o p t d

theorem airy_gapText (o : Options) (fresh p t : Bool) (d : Nat) : Airy (gapText o fresh p t d) := by
  unfold gapText
  split
  · intro x hx; cases hx
  · exact airy_mkText o p t d

theorem airy_one {x : Laid} (h : laidText x = none) : Airy [x] := by
  intro y hy s hs
  rw [List.mem_singleton.1 hy, h] at hs
  cases hs

theorem layNode_airy (V : View E A) (o : Options) (t : Bool) (d : Nat) (first last fresh p : Bool) (n : XNode E A)
    (hn : n.textlike = false) {items : List Laid} {q : Bool} (hl : layNode V o t d first last fresh p n = .ok (items, q)) :
    Airy items := by
  cases n with
  | elem e as ks =>
    rw [layNode] at hl
    split at hl
    · cases hl
    · cases hl
      exact (airy_gapText o fresh p t d).append (airy_one rfl)
  | text s => simp [XNode.textlike] at hn
  | style s => simp [XNode.textlike] at hn
  | comment s =>
    rw [layNode] at hl
    cases hl
    exact (airy_gapText o fresh p t d).append (airy_one rfl)
  | pi tg v =>
    rw [layNode] at hl
    split at hl
    · cases hl
      exact airy_one rfl
    · cases hl

theorem layAll_airy (V : View E A) (o : Options) (t : Bool) (d : Nat) (ns : List (XNode E A)) :
    ∀ (prevText start fresh p : Bool) (items : List Laid) (q : Bool), (∀ n ∈ ns, n.textlike = false) →
      layAll V o t d prevText start fresh p ns = .ok (items, q) → Airy items := by
  induction ns with
  | nil =>
    intro prevText start fresh p items q _ hl
    rw [layAll] at hl
    cases hl
    intro x hx; cases hx
  | cons n ns ih =>
    intro prevText start fresh p items q hn hl
    rw [layAll] at hl
    split at hl
    · cases hl
    · rename_i i1 q1 hk
      split at hl
      · cases hl
      · rename_i i2 q2 hk2
        cases hl
        exact (layNode_airy V o t d _ _ fresh p n (hn n List.mem_cons_self) hk).append
          (ih _ _ _ _ _ _ (fun m hm => hn m (List.mem_cons_of_mem _ hm)) hk2)

theorem airy_docs (items : List Laid) (h : Airy items) : ∀ n ∈ docsOf (toRaws items), (n.isSpace || !n.isText) = true := by
  induction items with
  | nil => intro n hn; cases hn
  | cons x items ih =>
    have ih := ih fun y hy => h y (List.mem_cons_of_mem _ hy)
    intro n hn
    rw [toRaws] at hn
    cases hl : laidText x with
    | none =>
      rw [toRaw_noText hl, docsOf] at hn
      rcases List.mem_cons.1 hn with rfl | hn
      · cases x <;> simp [laidText] at hl <;> rfl
      · exact ih n hn
    | some s =>
      have hs := h x List.mem_cons_self s hl
      obtain ⟨r, hr⟩ := toRaw_text hl
      rw [hr] at hn
      generalize toRaws items = R at hn ih
      cases R with
      | nil =>
        simp only [glueRaw, docsOf, docOf, List.mem_singleton] at hn
        subst hn
        simp [XNode.isSpace, hs]
      | cons m ms =>
        cases m with
        | text r' v' =>
          simp only [glueRaw, docsOf, docOf] at hn ih
          rcases List.mem_cons.1 hn with rfl | hn
          · have := ih _ List.mem_cons_self
            simp only [XNode.isSpace, XNode.isText, Bool.not_true, Bool.or_false] at this
            simp [XNode.isSpace, List.all_append, hs, this]
          · exact ih n (List.mem_cons_of_mem _ hn)
        | _ =>
          simp only [glueRaw, docsOf, docOf] at hn ih
          rcases List.mem_cons.1 hn with rfl | hn
          · simp [XNode.isSpace, hs]
          · exact ih n hn

/-- Whether it is an element. -/
def Gist.isElem : Gist → Bool
  | .elem _ _ _ => true
  | _ => false

theorem gist_elems (ns : List Doc) : ((gist ns).filter Gist.isElem).length = (ns.filter XNode.isElem).length := by
  induction ns with
  | nil => rfl
  | cons n ns ih =>
    rw [gist, List.filter_append, List.length_append, ih]
    cases n with
    | elem n as ks =>
      rw [List.filter_cons_of_pos (a := XNode.elem n as ks) rfl, List.length_cons, gistNode, List.filter_cons_of_pos rfl]
      simp; omega
    | text s => simp only [gistNode, wordsGist]; split <;> simp [Gist.isElem, XNode.isElem]
    | style s => simp only [gistNode, wordsGist]; split <;> simp [Gist.isElem, XNode.isElem]
    | comment s => simp [gistNode, Gist.isElem, XNode.isElem]
    | pi t d => simp [gistNode, Gist.isElem, XNode.isElem]

theorem asRead_elems (V : View E A) (ns : List (XNode E A)) :
    ((asRead V ns).filter XNode.isElem).length = (ns.filter XNode.isElem).length := by
  have hadd : ∀ (s : Str) (l : List Doc), ((addText s l).filter XNode.isElem) = l.filter XNode.isElem := by
    intro s l
    cases s with
    | nil => rfl
    | cons c s =>
      cases l with
      | nil => rfl
      | cons m ms => cases m <;> simp [addText, XNode.isElem]
  induction ns with
  | nil => rfl
  | cons n ns ih =>
    rw [asRead]
    cases n with
    | elem e as ks =>
      rw [asReadNode, List.filter_cons_of_pos rfl, List.filter_cons_of_pos (a := XNode.elem e as ks) rfl, List.length_cons,
        List.length_cons, ih]
    | text s => rw [asReadNode, hadd, ih]; simp [XNode.isElem]
    | style s => rw [asReadNode, hadd, ih]; simp [XNode.isElem]
    | comment s => simp [asReadNode, XNode.isElem, ih]
    | pi t d => simp [asReadNode, XNode.isElem, ih]

theorem gist_filter (ns : List Doc) (h : ∀ n ∈ ns, (n.isSpace || !n.isText) = true) :
    gist (ns.filter fun n => !n.isText) = gist ns := by
  induction ns with
  | nil => rfl
  | cons n ns ih =>
    have ih := ih fun m hm => h m (List.mem_cons_of_mem _ hm)
    have hn := h n List.mem_cons_self
    cases n with
    | text s =>
      have hs : s.all isS = true := by simpa [XNode.isSpace, XNode.isText] using hn
      have hw : words s = [] := (words_nil s).2 (by
        rw [List.all_eq_true] at hs ⊢
        exact fun c hc => isS_white (hs c hc))
      rw [List.filter_cons_of_neg (by simp [XNode.isText]), ih, gist, gistNode, wordsGist_blank hw]
      rfl
    | _ => rw [List.filter_cons_of_pos rfl, gist, gist, ih]

theorem read_show (sq sc : Bool) (items : List Laid) (h : LaidsOk items) (ha : Airy items)
    (hr : ((docsOf (toRaws items)).filter XNode.isElem).length = 1) :
    read (showAll sq sc items) = some ((docsOf (toRaws items)).filter fun n => !n.isText) := by
  unfold read
  rw [readContent_show sq sc items h]
  dsimp only
  have h2 : (docsOf (toRaws items)).all (fun n => n.isSpace || !n.isText) = true := by
    rw [List.all_eq_true]; exact airy_docs items ha
  rw [hr, h2]
  rfl

/-- Everything about the layout of a document. -/
theorem layDoc_facts (V : View E A) (o : Options) (doc : List (XNode E A)) (h : DocOk V doc) :
    ∃ items p, layAll V o false 0 false true true false doc = .ok (items, p) ∧ LaidsOk items ∧ Airy items ∧
      (Aparts doc → SepAll items ∧ gAll items = gist (asRead V doc)) ∧
      (o.indent = .none → SettledAll V o false true doc → docsOf (toRaws items) = asRead V doc) := by
  obtain ⟨ps, ns, rfl, hps, hok, htop⟩ := h.parts
  rcases hps with rfl | ⟨t, d, rfl, ht, hx, hd⟩
  · obtain ⟨items, q, h1, h2⟩ := layAll_ok V o false 0 false true true false ns hok (fun _ => htop)
    refine ⟨items, q, h1, h2, layAll_airy V o false 0 ns _ _ _ _ _ _ htop h1, ?_, ?_⟩
    · intro hap
      obtain ⟨s1, _, s3⟩ := layAll_shape V o false 0 false true true false ns hok hap h1
      exact ⟨s1, s3⟩
    · intro ho hset
      obtain ⟨items', e1, e2⟩ := layAll_same V o ho false 0 false true true false ns hok (fun _ => htop) hset
      have h1 : layAll V o false 0 false true true false ns = .ok (items, q) := h1
      rw [h1] at e1
      injection e1 with e1
      injection e1 with e1 _
      rw [e1]; exact e2
  · obtain ⟨items, q, h1, h2⟩ := layAll_ok V o false 0 false false false false ns hok (fun _ => htop)
    have h0 : layAll V o false 0 false true true false ([.pi t d] ++ ns) = .ok (.pi t d :: items, q) := by
      simp only [List.cons_append, List.nil_append, layAll, layNode, if_true, XNode.isText, Bool.true_and, List.isEmpty_cons, h1]
    refine ⟨.pi t d :: items, q, h0, ⟨⟨ht, hx, hd⟩, h2⟩, ?_, ?_, ?_⟩
    · exact (airy_one (x := .pi t d) rfl).append (layAll_airy V o false 0 ns _ _ _ _ _ _ htop h1)
    · intro hap
      obtain ⟨s1, _, s3⟩ := layAll_shape V o false 0 false false false false ns hok hap.2.1 h1
      refine ⟨⟨trivial, s1, fun s hs => by simp [laidText] at hs⟩, ?_⟩
      simp only [gAll, gNode, s3, List.cons_append, List.nil_append, asRead, asReadNode, gist, gistNode]
    · intro ho hset
      obtain ⟨items', e1, e2⟩ := layAll_same V o ho false 0 false false false false ns hok (fun _ => htop) hset.2
      rw [h1] at e1
      injection e1 with e1
      injection e1 with e1 _
      rw [List.cons_append, List.nil_append, toRaws, toRaw, e1]
      simp only [glueRaw, docsOf, docOf, asRead, asReadNode, e2]

theorem asRead_noText (V : View E A) (doc : List (XNode E A)) (htop : ∀ n ∈ doc, n.textlike = false) :
    ((asRead V doc).filter fun n => !n.isText) = asRead V doc := by
  induction doc with
  | nil => rfl
  | cons n doc ih =>
    have ih := ih fun m hm => htop m (List.mem_cons_of_mem _ hm)
    have hn := htop n List.mem_cons_self
    rw [asRead]
    cases n with
    | text s => simp [XNode.textlike] at hn
    | style s => simp [XNode.textlike] at hn
    | _ => rw [asReadNode, List.filter_cons_of_pos rfl, ih]

/-- The document written and read, for settled texts and without indentation. -/
theorem write_read_same (V : View E A) (o : Options) (doc : List (XNode E A)) (h : DocOk V doc) (ho : o.indent = .none)
    (hs : SettledAll V o false true doc) : ∃ s, serialize V o doc = .ok s ∧ read s = some (asRead V doc) := by
  obtain ⟨items, p, h1, h2, h3, _, h5⟩ := layDoc_facts V o doc h
  have h5 := h5 ho hs
  refine ⟨showAll o.singleQuote o.selfClosing items, ?_, ?_⟩
  · rw [serialize_eq]
    unfold layDoc
    rw [h1]
    simp [Except.map, gap_none o ho, mkText]
  · rw [read_show _ _ items h2 h3 (by rw [h5, asRead_elems, h.root]), h5]
    congr 1
    have htop : ∀ n ∈ doc, n.textlike = false := by
      obtain ⟨ps, ns, rfl, hps, _, htop⟩ := h.parts
      intro n hn
      rcases List.mem_append.1 hn with hn | hn
      · rcases hps with rfl | ⟨t, d, rfl, _⟩
        · cases hn
        · rw [List.mem_singleton.1 hn]; rfl
      · exact htop n hn
    exact asRead_noText V doc htop

/-- The document written and read, for all options. -/
theorem write_read_gist (V : View E A) (o : Options) (doc : List (XNode E A)) (h : DocOk V doc) (ha : Aparts doc) :
    ∃ s d, serialize V o doc = .ok s ∧ read s = some d ∧ gist d = gist (asRead V doc) := by
  obtain ⟨items, p, h1, h2, h3, h4, _⟩ := layDoc_facts V o doc h
  obtain ⟨h4, h5⟩ := h4 ha
  obtain ⟨g1, g2, g3⟩ := mkText_gap_sep o p false 0
  have hok : LaidsOk (items ++ mkText (gap o p false 0)) := (laidsOk_append _ _).2 ⟨h2, mkText_gap_ok o p false 0⟩
  have hair := h3.append (airy_mkText o p false 0)
  have hg : gist (docsOf (toRaws (items ++ mkText (gap o p false 0)))) = gist (asRead V doc) := by
    rw [gist_toRaws _ (sepAll_append h4 g1 g2), gAll_append, g3, List.append_nil, h5]
  refine ⟨_, _, ?_, read_show o.singleQuote o.selfClosing _ hok hair ?_, ?_⟩
  · rw [serialize_eq]
    unfold layDoc
    rw [h1]
    rfl
  · rw [← gist_elems, hg, gist_elems, asRead_elems, h.root]
  · rw [gist_filter _ (airy_docs _ hair), hg]

end Verif.Xml
