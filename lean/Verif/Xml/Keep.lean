import Verif.Xml.Read

/-!
# What is kept
-/

namespace Verif.Xml

set_option linter.unusedSectionVars false

variable {E A : Type}

/-! ## Words -/

theorem wordsFrom_eq (s : Str) : ∀ cur, wordsFrom cur s =
    if (cur ++ (splitGo s).1).isEmpty then (splitGo s).2 else (cur ++ (splitGo s).1) :: (splitGo s).2 := by
  induction s with
  | nil => intro cur; simp [wordsFrom, splitGo]
  | cons c s ih =>
    intro cur
    by_cases hc : isWhitespace c = true
    · simp only [wordsFrom, splitGo, hc, if_true, ih, List.nil_append, List.append_nil]
    · simp only [wordsFrom, splitGo, hc, ih, Bool.false_eq_true, if_false]
      simp

theorem words_eq (s : Str) : words s = splitWhitespace s := by
  rw [words, wordsFrom_eq, splitWhitespace]; rfl

theorem words_nil (s : Str) : words s = [] ↔ s.all isWhitespace = true := by
  rw [words_eq, splitWhitespace_nil]

theorem words_blank_left {b : Str} (s : Str) (hb : b.all isWhitespace = true) : words (b ++ s) = words s := by
  induction b with
  | nil => rfl
  | cons c b ih =>
    simp only [List.all_cons, Bool.and_eq_true] at hb
    rw [← ih hb.2]
    simp [words, wordsFrom, hb.1]

theorem wordsFrom_blank {b : Str} (hb : b.all isWhitespace = true) (cur : Str) : wordsFrom cur b = wordsFrom cur [] := by
  induction b generalizing cur with
  | nil => rfl
  | cons c b ih =>
    simp only [List.all_cons, Bool.and_eq_true] at hb
    simp only [wordsFrom, hb.1, if_true, ih hb.2]
    simp

theorem words_blank_right {b : Str} (s : Str) (hb : b.all isWhitespace = true) : words (s ++ b) = words s := by
  suffices ∀ cur, wordsFrom cur (s ++ b) = wordsFrom cur s from this []
  induction s with
  | nil => intro cur; exact wordsFrom_blank hb cur
  | cons c s ih => intro cur; simp only [List.cons_append, wordsFrom, ih]

/-- A word. -/
def IsWord (w : Str) : Prop := w ≠ [] ∧ ∀ c ∈ w, isWhitespace c = false

theorem splitGo_words (s : Str) : (∀ c ∈ (splitGo s).1, isWhitespace c = false) ∧ ∀ w ∈ (splitGo s).2, IsWord w := by
  induction s with
  | nil => simp [splitGo]
  | cons c s ih =>
    by_cases hc : isWhitespace c = true
    · simp only [splitGo, hc, if_true]
      refine ⟨by simp, ?_⟩
      split
      · exact ih.2
      · rename_i hne
        intro w hw
        rcases List.mem_cons.1 hw with rfl | hw
        · exact ⟨by intro e; simp [e] at hne, ih.1⟩
        · exact ih.2 w hw
    · simp only [splitGo, hc, Bool.false_eq_true, if_false]
      refine ⟨?_, ih.2⟩
      intro d hd
      rcases List.mem_cons.1 hd with rfl | hd
      · simpa using hc
      · exact ih.1 d hd

theorem splitWhitespace_words (s : Str) : ∀ w ∈ splitWhitespace s, IsWord w := by
  have h := splitGo_words s
  unfold splitWhitespace
  dsimp only
  split
  · exact h.2
  · rename_i hne
    intro w hw
    rcases List.mem_cons.1 hw with rfl | hw
    · exact ⟨by intro e; simp [e] at hne, h.1⟩
    · exact h.2 w hw

theorem splitGo_word {w : Str} (hw : ∀ c ∈ w, isWhitespace c = false) (s : Str) :
    splitGo (w ++ s) = (w ++ (splitGo s).1, (splitGo s).2) := by
  induction w with
  | nil => rfl
  | cons c w ih =>
    simp only [List.cons_append, splitGo, hw c (by simp), Bool.false_eq_true, if_false, ih fun d hd => hw d (by simp [hd])]

theorem splitGo_parts (ps : List Str) (h : ∀ w ∈ ps, IsWord w) : splitGo (ps.flatMap fun p => sp :: p) = ([], ps) := by
  induction ps with
  | nil => rfl
  | cons p ps ih =>
    have hp := h p (by simp)
    have ih := ih fun w hw => h w (by simp [hw])
    have hsp : isWhitespace sp = true := rfl
    simp only [List.flatMap_cons, List.cons_append, splitGo, hsp, if_true, splitGo_word hp.2, ih, List.append_nil]
    simp [hp.1]

theorem words_join (ws : List Str) (h : ∀ w ∈ ws, IsWord w) : words (joinWords ws) = ws := by
  rw [words_eq]
  cases ws with
  | nil => rfl
  | cons p ps =>
    have hp := h p (by simp)
    simp only [joinWords, splitWhitespace, splitGo_word hp.2, splitGo_parts ps fun w hw => h w (by simp [hw]), List.append_nil]
    simp [hp.1]

theorem words_collapse (o : Options) (first last : Bool) (s : Str) : words (collapse o first last s) = words s := by
  unfold collapse
  rw [words_blank_right, words_blank_left, words_join _ (splitWhitespace_words s), words_eq]
  · split <;> rfl
  · split <;> rfl

theorem flatten_white (c : Nat) : isWhitespace (flatten c) = isWhitespace c := by
  unfold flatten
  split
  · rename_i h
    simp only [Bool.or_eq_true, decide_eq_true_eq] at h
    rcases h with rfl | rfl <;> rfl
  · rfl

theorem flatten_black {c : Nat} (h : isWhitespace c = false) : flatten c = c := by
  unfold flatten
  split
  · rename_i hc
    simp only [Bool.or_eq_true, decide_eq_true_eq] at hc
    rcases hc with rfl | rfl <;> simp [isWhitespace, nl, tab] at h
  · rfl

theorem words_flatten (s : Str) : words (s.map flatten) = words s := by
  suffices ∀ cur, wordsFrom cur (s.map flatten) = wordsFrom cur s from this []
  induction s with
  | nil => intro cur; rfl
  | cons c s ih =>
    intro cur
    simp only [List.map_cons, wordsFrom, flatten_white, ih]
    by_cases hc : isWhitespace c = true
    · simp [hc]
    · simp only [hc, Bool.false_eq_true, if_false]
      rw [flatten_black (by simpa using hc)]

theorem isS_white {c : Nat} (h : isS c = true) : isWhitespace c = true := by
  simp only [isS, Bool.or_eq_true, beq_iff_eq] at h
  rcases h with ((rfl | rfl) | rfl) | rfl <;> rfl

theorem gap_blank (o : Options) (p t : Bool) (d : Nat) : (gap o p t d).all isWhitespace = true := by
  rw [List.all_eq_true]
  exact fun c hc => isS_white (gap_space o p t d c hc)

/-! ## What is laid out can be written -/

theorem laidsOk_append (a b : List Laid) : LaidsOk (a ++ b) ↔ LaidsOk a ∧ LaidsOk b := by
  induction a with
  | nil => simp [LaidsOk]
  | cons n a ih => simp [LaidsOk, ih, and_assoc]

theorem spaceChars_no13 (s : Str) (h : ∀ c ∈ s, c = 32 ∨ c = 9 ∨ c = 10) : plainChars s = true := by
  simp only [plainChars, List.all_eq_true, Bool.and_eq_true, bne_iff_ne, ne_eq]
  intro c hc
  rcases h c hc with rfl | rfl | rfl <;> decide

theorem unit_chars (i : Indent) : ∀ c ∈ i.unit, c = 32 ∨ c = 9 ∨ c = 10 := by
  cases i with
  | none => simp [Indent.unit]
  | spaces n => intro c hc; exact Or.inl (List.eq_of_mem_replicate hc)
  | tabs => simp [Indent.unit, tab]

theorem units_chars (i : Indent) (d : Nat) : ∀ c ∈ (List.replicate d i.unit).flatten, c = 32 ∨ c = 9 ∨ c = 10 := by
  intro c hc
  obtain ⟨l, hl, hc⟩ := List.mem_flatten.1 hc
  rw [List.eq_of_mem_replicate hl] at hc
  exact unit_chars i c hc

theorem gap_chars (o : Options) (p t : Bool) (d : Nat) : plainChars (gap o p t d) = true := by
  apply spaceChars_no13
  unfold gap
  split
  · simp
  · intro c hc
    rcases List.mem_cons.1 hc with rfl | hc
    · exact Or.inr (Or.inr rfl)
    · exact units_chars _ _ c hc

theorem mkText_gap_ok (o : Options) (p t : Bool) (d : Nat) : LaidsOk (mkText (gap o p t d)) := by
  unfold mkText
  split
  · trivial
  · rename_i h
    exact ⟨⟨by intro e; simp [e] at h, gap_chars o p t d⟩, trivial⟩

theorem gapText_ok (o : Options) (fresh p t : Bool) (d : Nat) : LaidsOk (gapText o fresh p t d) := by
  unfold gapText
  split
  · trivial
  · exact mkText_gap_ok o p t d

theorem sepOf_ok (o : Options) (p t : Bool) (d : Nat) : sepOf o p t d ≠ [] ∧ ∀ c ∈ sepOf o p t d, isS c = true := by
  unfold sepOf
  split
  · simp [isS, sp]
  · refine ⟨by simp, ?_⟩
    intro c hc
    rcases List.mem_cons.1 hc with rfl | hc
    · rfl
    · rcases List.mem_append.1 hc with hc | hc
      · exact ind_space _ _ _ _ c hc
      · exact ind_space _ _ _ _ c hc

theorem layAttrs_pairs (V : View E A) (o : Options) (t : Bool) (d : Nat) (as : List A) : ∀ p,
    (layAttrs V o t d p as).1.map (·.2) = as.map fun a => (V.aname a, V.avalue a) := by
  induction as with
  | nil => intro p; rfl
  | cons a as ih => intro p; simp [layAttrs, ih]

theorem layAttrs_seps (V : View E A) (o : Options) (t : Bool) (d : Nat) (as : List A) : ∀ p,
    ∀ x ∈ (layAttrs V o t d p as).1, x.1 ≠ [] ∧ ∀ c ∈ x.1, isS c = true := by
  induction as with
  | nil => intro p; simp [layAttrs]
  | cons a as ih =>
    intro p x hx
    simp only [layAttrs] at hx
    rcases List.mem_cons.1 hx with rfl | hx
    · exact sepOf_ok o _ t d
    · exact ih _ x hx

theorem layAttrs_ok (V : View E A) (o : Options) (t : Bool) (d : Nat) (p : Bool) {e : E} {as : List A} (h : TagOk V e as) :
    AttrsOk (layAttrs V o t d p as).1 := by
  have hp := layAttrs_pairs V o t d as p
  have hmem : ∀ x ∈ (layAttrs V o t d p as).1, ∃ a ∈ as, x.2 = (V.aname a, V.avalue a) := by
    intro x hx
    have : x.2 ∈ (layAttrs V o t d p as).1.map (·.2) := List.mem_map.2 ⟨x, hx, rfl⟩
    rw [hp] at this
    obtain ⟨a, ha, e⟩ := List.mem_map.1 this
    exact ⟨a, ha, e.symm⟩
  refine ⟨layAttrs_seps V o t d as p, ?_, ?_, ?_⟩
  · intro x hx
    obtain ⟨a, ha, e⟩ := hmem x hx
    rw [e]; exact h.aname a ha
  · intro x hx
    obtain ⟨a, ha, e⟩ := hmem x hx
    rw [e]; exact h.value a ha
  · have : (layAttrs V o t d p as).1.map (·.2.1) = as.map V.aname := by
      have := congrArg (List.map Prod.fst) hp
      rw [List.map_map, List.map_map] at this
      exact this
    rw [this]; exact h.distinct

theorem splitGo_mem (s : Str) : (∀ c ∈ (splitGo s).1, c ∈ s) ∧ ∀ w ∈ (splitGo s).2, ∀ c ∈ w, c ∈ s := by
  induction s with
  | nil => simp [splitGo]
  | cons c s ih =>
    by_cases hc : isWhitespace c = true
    · simp only [splitGo, hc, if_true]
      refine ⟨by simp, ?_⟩
      intro w hw d hd
      split at hw
      · exact List.mem_cons_of_mem _ (ih.2 w hw d hd)
      · rcases List.mem_cons.1 hw with rfl | hw
        · exact List.mem_cons_of_mem _ (ih.1 d hd)
        · exact List.mem_cons_of_mem _ (ih.2 w hw d hd)
    · simp only [splitGo, hc, Bool.false_eq_true, if_false]
      refine ⟨?_, fun w hw d hd => List.mem_cons_of_mem _ (ih.2 w hw d hd)⟩
      intro d hd
      rcases List.mem_cons.1 hd with rfl | hd
      · simp
      · exact List.mem_cons_of_mem _ (ih.1 d hd)

theorem splitWhitespace_mem (s : Str) : ∀ w ∈ splitWhitespace s, ∀ c ∈ w, c ∈ s := by
  have h := splitGo_mem s
  unfold splitWhitespace
  dsimp only
  split
  · exact h.2
  · intro w hw
    rcases List.mem_cons.1 hw with rfl | hw
    · exact h.1
    · exact h.2 w hw

theorem joinWords_mem (ws : List Str) : ∀ c ∈ joinWords ws, c = sp ∨ ∃ w ∈ ws, c ∈ w := by
  cases ws with
  | nil => simp [joinWords]
  | cons p ps =>
    intro c hc
    simp only [joinWords, List.mem_append, List.mem_flatMap] at hc
    rcases hc with hc | ⟨w, hw, hc⟩
    · exact Or.inr ⟨p, by simp, hc⟩
    · rcases List.mem_cons.1 hc with rfl | hc
      · exact Or.inl rfl
      · exact Or.inr ⟨w, by simp [hw], hc⟩

theorem collapse_mem (o : Options) (first last : Bool) (s : Str) : ∀ c ∈ collapse o first last s, c = sp ∨ c ∈ s := by
  intro c hc
  unfold collapse at hc
  rcases List.mem_append.1 hc with hc | hc
  · rcases List.mem_append.1 hc with hc | hc
    · split at hc
      · exact Or.inl (List.mem_singleton.1 hc)
      · cases hc
    · rcases joinWords_mem _ c hc with h | ⟨w, hw, h⟩
      · exact Or.inl h
      · exact Or.inr (splitWhitespace_mem s w hw c h)
  · split at hc
    · exact Or.inl (List.mem_singleton.1 hc)
    · cases hc

theorem collapse_ok (o : Options) (first last : Bool) {s : Str} (hs : s.all isWhitespace = false) (hp : plainChars s = true) :
    collapse o first last s ≠ [] ∧ plainChars (collapse o first last s) = true := by
  refine ⟨?_, ?_⟩
  · intro e
    have h := words_collapse o first last s
    rw [e] at h
    have : words s = [] := h.symm
    rw [words_nil, hs] at this
    cases this
  · simp only [plainChars, List.all_eq_true] at hp ⊢
    intro c hc
    rcases collapse_mem o first last s c hc with rfl | hc
    · decide
    · exact hp c hc

theorem flatten_ok {s : Str} (hp : plainChars s = true) : plainChars (s.map flatten) = true := by
  simp only [plainChars, List.all_eq_true, List.mem_map] at hp ⊢
  rintro c ⟨d, hd, rfl⟩
  unfold flatten
  split
  · decide
  · exact hp d hd

theorem layText_ok (o : Options) (p t : Bool) (d : Nat) (first last : Bool) {s : Str} (hs : s ≠ []) (hp : plainChars s = true)
    (hd : d ≠ 0) : ∃ items, layText o p t d first last s = .ok items ∧ LaidsOk items := by
  unfold layText
  split
  · by_cases hw : s.all isWhitespace = true
    · rw [if_pos hw]; exact ⟨_, rfl, trivial⟩
    · rw [if_neg hw, if_neg hd]
      refine ⟨_, rfl, (laidsOk_append _ _).2 ⟨mkText_gap_ok o p t d, ⟨collapse_ok o first last (by simpa using hw) hp, trivial⟩⟩⟩
  · rw [if_neg hd]
    refine ⟨_, rfl, ⟨⟨by simpa using hs, flatten_ok hp⟩, trivial⟩⟩
  · rw [if_neg hd]
    exact ⟨_, rfl, (laidsOk_append _ _).2 ⟨mkText_gap_ok o p t d, ⟨⟨hs, hp⟩, trivial⟩⟩⟩
  · exact ⟨_, rfl, trivial⟩

theorem layKids_ok (o : Options) (p t textual : Bool) (d : Nat) {items : List Laid} (h : LaidsOk items) :
    LaidsOk (layKids o p t textual d items) := by
  unfold layKids
  split
  · trivial
  · split
    · exact (laidsOk_append _ _).2 ⟨h, mkText_gap_ok o p t d⟩
    · exact h

mutual
theorem layNode_ok (V : View E A) (o : Options) (t : Bool) (d : Nat) (first last fresh p : Bool) (n : XNode E A)
    (h : SrcOk V n) (hd : d = 0 → n.textlike = false) :
    ∃ items q, layNode V o t d first last fresh p n = .ok (items, q) ∧ LaidsOk items := by
  match n, h with
  | .elem e as ks, h =>
    obtain ⟨items, q, h1, h2⟩ := layAll_ok V o (V.textual e || t) (d + 1) false true false
      (layAttrs V o (V.textual e || t) d p as).2 ks h.2 (by simp)
    simp only [layNode, h1]
    exact ⟨_, _, rfl, (laidsOk_append _ _).2 ⟨gapText_ok o fresh p t d,
      ⟨⟨h.1.ename, layAttrs_ok V o _ d p h.1, layKids_ok o q t (V.textual e) d h2⟩, trivial⟩⟩⟩
  | .text s, h =>
    have hd : d ≠ 0 := fun e => by simpa [XNode.textlike] using hd e
    simp only [layNode]
    split
    · exact ⟨_, _, rfl, trivial⟩
    · rename_i hs
      obtain ⟨items, h1, h2⟩ := layText_ok o p t d first last (s := s) (by intro e; simp [e] at hs) h hd
      rw [h1]
      exact ⟨_, _, rfl, h2⟩
  | .style s, h =>
    have hd : d ≠ 0 := fun e => by simpa [XNode.textlike] using hd e
    simp only [layNode]
    split
    · exact ⟨_, _, rfl, trivial⟩
    · rename_i hs
      try rw [if_neg hd]
      rcases h with rfl | h
      · simp at hs
      · exact ⟨_, _, rfl, (laidsOk_append _ _).2 ⟨mkText_gap_ok o p t d, ⟨h, trivial⟩⟩⟩
  | .comment s, h => exact ⟨_, _, rfl, (laidsOk_append _ _).2 ⟨gapText_ok o fresh p t d, ⟨h, trivial⟩⟩⟩
  | .pi t d, h => exact absurd h id
theorem layAll_ok (V : View E A) (o : Options) (t : Bool) (d : Nat) (prevText start fresh p : Bool) (ns : List (XNode E A))
    (h : SrcsOk V ns) (hd : d = 0 → ∀ n ∈ ns, n.textlike = false) :
    ∃ items q, layAll V o t d prevText start fresh p ns = .ok (items, q) ∧ LaidsOk items := by
  match ns, h with
  | [], _ => exact ⟨_, _, rfl, trivial⟩
  | n :: ns, h =>
    obtain ⟨i1, q1, h1, h2⟩ := layNode_ok V o t d (start || prevText)
      (ns.isEmpty || (ns.head?.map XNode.isText).getD false) fresh p n h.1 (fun e => hd e n List.mem_cons_self)
    obtain ⟨i2, q2, h3, h4⟩ := layAll_ok V o t d n.isText false (fresh && i1.isEmpty) q1 ns h.2
      (fun e m hm => hd e m (List.mem_cons_of_mem _ hm))
    simp only [layAll, h1, h3]
    exact ⟨_, _, rfl, (laidsOk_append _ _).2 ⟨h2, h4⟩⟩
end

/-! ## Separate texts -/

/-- Texts of laid out nodes. -/
def laidText : Laid → Option Str
  | .text s => some s
  | .style s => some s
  | _ => none

/-- The texts at the beginning have no words. -/
def blankRun : List Laid → Prop
  | [] => True
  | n :: ns => ∀ s, laidText n = some s → words s = [] ∧ blankRun ns

mutual
def Sep : Laid → Prop
  | .elem _ _ ks => SepAll ks
  | .text _ => True
  | .style _ => True
  | .comment _ => True
  | .pi _ _ => True
/-- Of adjacent texts, at most one has words. -/
def SepAll : List Laid → Prop
  | [] => True
  | n :: ns => Sep n ∧ SepAll ns ∧ ∀ s, laidText n = some s → words s ≠ [] → blankRun ns
end

mutual
def gNode : Laid → List Gist
  | .elem n as ks => [.elem n (as.map (·.2)) (gAll ks)]
  | .text s => wordsGist s
  | .style s => wordsGist s
  | .comment s => [.comment s]
  | .pi t d => [.pi t d]
def gAll : List Laid → List Gist
  | [] => []
  | n :: ns => gNode n ++ gAll ns
end

theorem gAll_append (a b : List Laid) : gAll (a ++ b) = gAll a ++ gAll b := by
  induction a with
  | nil => rfl
  | cons n a ih => simp [gAll, ih]

theorem wordsGist_blank {s : Str} (h : words s = []) : wordsGist s = [] := by
  simp [wordsGist, h]

theorem all_white {s : Str} (h : words s = []) : s.all isWhitespace = true := (words_nil s).1 h

/-- The text at the beginning after joining. -/
def headVal : List Raw → Option Str
  | .text _ v :: _ => some v
  | _ => none

theorem toRaw_text {n : Laid} {s : Str} (h : laidText n = some s) : ∃ r, toRaw n = .text r s := by
  cases n with
  | text s' => simp only [laidText, Option.some.injEq] at h; subst h; exact ⟨_, rfl⟩
  | style s' => simp only [laidText, Option.some.injEq] at h; subst h; exact ⟨_, rfl⟩
  | _ => simp [laidText] at h

theorem toRaw_noText {n : Laid} (h : laidText n = none) (ns : List Raw) : glueRaw (toRaw n) ns = toRaw n :: ns := by
  cases n with
  | text s => simp [laidText] at h
  | style s => simp [laidText] at h
  | _ => rfl

theorem headVal_glue (r v : Str) (ns : List Raw) : headVal (glueRaw (.text r v) ns) = some (v ++ (headVal ns).getD []) := by
  cases ns with
  | nil => simp [glueRaw, headVal]
  | cons m ms => cases m <;> simp [glueRaw, headVal]

theorem headVal_blank (ns : List Laid) (h : blankRun ns) : ∀ v, headVal (toRaws ns) = some v → words v = [] := by
  induction ns with
  | nil => intro v hv; simp [toRaws, headVal] at hv
  | cons n ns ih =>
    intro v hv
    rw [toRaws] at hv
    cases hl : laidText n with
    | none =>
      rw [toRaw_noText hl] at hv
      cases n <;> simp [laidText, toRaw, headVal] at hl hv
    | some s =>
      obtain ⟨r, hr⟩ := toRaw_text hl
      obtain ⟨h1, h2⟩ := h s hl
      rw [hr, headVal_glue] at hv
      simp only [Option.some.injEq] at hv
      rw [← hv, words_blank_left _ (all_white h1)]
      cases hh : headVal (toRaws ns) with
      | none => rfl
      | some v' => exact ih h2 v' hh

theorem gist_glue_text (r v : Str) (ns : List Raw)
    (h : words v = [] ∨ ∀ v', headVal ns = some v' → words v' = []) :
    gist (docsOf (glueRaw (.text r v) ns)) = wordsGist v ++ gist (docsOf ns) := by
  cases ns with
  | nil => rfl
  | cons m ms =>
    cases m with
    | text r' v' =>
      simp only [glueRaw, docsOf, docOf, gist, gistNode]
      rw [← List.append_assoc]
      congr 1
      rcases h with h | h
      · rw [wordsGist_blank h]
        simp only [wordsGist, words_blank_left _ (all_white h), List.nil_append]
      · have h' := h v' rfl
        rw [wordsGist_blank h']
        simp only [wordsGist, words_blank_right _ (all_white h'), List.append_nil]
    | _ => rfl

mutual
theorem gist_toRaw (n : Laid) (h : Sep n) : gistNode (docOf (toRaw n)) = gNode n := by
  match n, h with
  | .elem n as ks, h => simp only [toRaw, docOf, gistNode, gNode, gist_toRaws ks h]
  | .text s, _ => rfl
  | .style s, _ => rfl
  | .comment s, _ => rfl
  | .pi t d, _ => rfl
theorem gist_toRaws (ns : List Laid) (h : SepAll ns) : gist (docsOf (toRaws ns)) = gAll ns := by
  match ns, h with
  | [], _ => rfl
  | n :: ns, h =>
    have h1 := gist_toRaw n h.1
    have h2 := gist_toRaws ns h.2.1
    rw [toRaws, gAll]
    cases hl : laidText n with
    | none => rw [toRaw_noText hl, docsOf, gist, h1, h2]
    | some s =>
      obtain ⟨r, hr⟩ := toRaw_text hl
      rw [hr] at h1 ⊢
      rw [gist_glue_text, h2, ← h1]
      · rfl
      · by_cases hw : words s = []
        · exact Or.inl hw
        · exact Or.inr (headVal_blank ns (h.2.2 s hl hw))
end

theorem blankRun_append_blank {a : List Laid} (h : blankRun a) {b : List Laid} (hb : blankRun b) : blankRun (a ++ b) := by
  induction a with
  | nil => exact hb
  | cons n a ih => exact fun s hs => ⟨(h s hs).1, ih (h s hs).2⟩

theorem sepAll_append {a : List Laid} (ha : SepAll a) {b : List Laid} (hb : SepAll b) (hr : blankRun b) : SepAll (a ++ b) := by
  induction a with
  | nil => exact hb
  | cons n a ih => exact ⟨ha.1, ih ha.2.1, fun s hs hw => blankRun_append_blank (ha.2.2 s hs hw) hr⟩

theorem mkText_gap_sep (o : Options) (p t : Bool) (d : Nat) :
    SepAll (mkText (gap o p t d)) ∧ blankRun (mkText (gap o p t d)) ∧ gAll (mkText (gap o p t d)) = [] := by
  unfold mkText
  have hw : words (gap o p t d) = [] := (words_nil _).2 (gap_blank o p t d)
  split
  · exact ⟨trivial, trivial, rfl⟩
  · refine ⟨⟨trivial, trivial, fun _ _ _ => trivial⟩, ?_, ?_⟩
    · intro s hs
      simp only [laidText, Option.some.injEq] at hs
      exact ⟨by rw [← hs]; exact hw, trivial⟩
    · simp [gAll, gNode, wordsGist_blank hw]

theorem gapText_sep (o : Options) (fresh p t : Bool) (d : Nat) :
    SepAll (gapText o fresh p t d) ∧ blankRun (gapText o fresh p t d) ∧ gAll (gapText o fresh p t d) = [] := by
  unfold gapText
  split
  · exact ⟨trivial, trivial, rfl⟩
  · exact mkText_gap_sep o p t d

/-- Blank text before a node. -/
theorem sep_blank_cons {a : List Laid} (ha : blankRun a ∧ gAll a = []) {b : List Laid} (hb : SepAll b) (hs : SepAll a) :
    SepAll (a ++ b) := by
  induction a with
  | nil => exact hb
  | cons n a ih =>
    cases hl : laidText n with
    | none => exact absurd ha.2 (by cases n <;> simp [laidText] at hl <;> simp [gAll, gNode])
    | some s =>
      obtain ⟨h1, h2⟩ := ha.1 s hl
      have hg : gAll a = [] := by
        have := ha.2
        rw [gAll] at this
        exact (List.append_eq_nil_iff.1 this).2
      refine ⟨hs.1, ih ⟨h2, hg⟩ hs.2.1, ?_⟩
      intro s' hs' hw
      rw [hl] at hs'
      cases hs'
      exact absurd h1 hw

theorem layKids_sep (o : Options) (p t textual : Bool) (d : Nat) {items : List Laid} (h : SepAll items) :
    SepAll (layKids o p t textual d items) ∧ gAll (layKids o p t textual d items) = gAll items := by
  obtain ⟨g1, g2, g3⟩ := mkText_gap_sep o p t d
  unfold layKids
  split
  · rename_i hc
    rw [Bool.and_eq_true, List.isEmpty_iff] at hc
    rw [hc.1]
    exact ⟨trivial, rfl⟩
  · split
    · exact ⟨sepAll_append h g1 g2, by rw [gAll_append, g3, List.append_nil]⟩
    · exact ⟨h, rfl⟩

/-- What a source node is up to white space. -/
def srcGist (V : View E A) (n : XNode E A) : List Gist := gist (asReadNode V [] n)

/-- The items of a node: a blank part, then at most one node. -/
inductive Shape (V : View E A) (n : XNode E A) : List Laid → Prop
  | nothing (h : srcGist V n = []) : Shape V n []
  | some (b : List Laid) (x : Laid) (hb : SepAll b ∧ blankRun b ∧ gAll b = []) (hx : Sep x) (hg : gNode x = srcGist V n)
      (ht : (laidText x).isSome = n.textlike) : Shape V n (b ++ [x])

theorem srcGist_text (V : View E A) (s : Str) : srcGist V (.text s) = wordsGist s := by
  unfold srcGist
  rw [asReadNode]
  cases s with
  | nil => rfl
  | cons c s => simp [addText, gist, gistNode]

theorem srcGist_style (V : View E A) (s : Str) : srcGist V (.style s) = wordsGist s := by
  unfold srcGist
  rw [asReadNode]
  cases s with
  | nil => rfl
  | cons c s => simp [addText, gist, gistNode]

theorem layText_shape (V : View E A) (o : Options) (p t : Bool) (d : Nat) (first last : Bool) {s : Str} {items : List Laid}
    (h : layText o p t d first last s = .ok items) : Shape V (.text s) items := by
  unfold layText at h
  have hg := mkText_gap_sep o p t d
  split at h
  · by_cases hw : s.all isWhitespace = true
    · rw [if_pos hw] at h
      cases h
      exact .nothing (by rw [srcGist_text]; exact wordsGist_blank ((words_nil s).2 hw))
    · rw [if_neg hw] at h
      split at h
      · cases h
      · cases h
        exact .some _ _ hg trivial (by rw [srcGist_text]; simp only [gNode, wordsGist, words_collapse]) rfl
  · split at h
    · cases h
    · cases h
      exact .some [] _ ⟨trivial, trivial, rfl⟩ trivial (by rw [srcGist_text]; simp only [gNode, wordsGist, words_flatten]) rfl
  · split at h
    · cases h
    · cases h
      exact .some _ _ hg trivial (by rw [srcGist_text]; rfl) rfl
  · rename_i hm
    unfold mode at hm
    split at hm
    · split at hm <;> cases hm
    · rename_i hne
      exact absurd hm hne

theorem asRead_head (V : View E A) (ns : List (XNode E A)) (h : headTextlike ns = false) :
    ∀ s rest, asRead V ns ≠ .text s :: rest := by
  intro s rest
  cases ns with
  | nil => simp [asRead]
  | cons n ns => cases n <;> simp [headTextlike, XNode.textlike] at h <;> simp [asRead, asReadNode]

theorem gist_addText (s : Str) (ns : List Doc) (h : ∀ s' rest, ns ≠ .text s' :: rest) :
    gist (addText s ns) = gist (addText s []) ++ gist ns := by
  cases s with
  | nil => rfl
  | cons c s =>
    cases ns with
    | nil => simp [addText, gist]
    | cons m ms =>
      cases m with
      | text s' => exact absurd rfl (h s' ms)
      | _ => simp [addText, gist]

theorem gist_asRead_cons (V : View E A) (n : XNode E A) (ns : List (XNode E A))
    (h : n.textlike = true → headTextlike ns = false) : gist (asRead V (n :: ns)) = srcGist V n ++ gist (asRead V ns) := by
  unfold srcGist
  cases n with
  | elem e as ks => simp [asRead, asReadNode, gist]
  | text s => rw [asRead, asReadNode, asReadNode, gist_addText s _ (asRead_head V ns (h rfl))]
  | style s => rw [asRead, asReadNode, asReadNode, gist_addText s _ (asRead_head V ns (h rfl))]
  | comment s => simp [asRead, asReadNode, gist]
  | pi t d => simp [asRead, asReadNode, gist]

mutual
theorem layNode_shape (V : View E A) (o : Options) (t : Bool) (d : Nat) (first last fresh p : Bool) (n : XNode E A)
    (h : SrcOk V n) (ha : Apart n) {items : List Laid} {q : Bool}
    (hl : layNode V o t d first last fresh p n = .ok (items, q)) : Shape V n items := by
  match n, h, ha with
  | .elem e as ks, h, ha =>
    rw [layNode] at hl
    split at hl
    · cases hl
    · rename_i r items' q' hk
      cases hl
      obtain ⟨k1, k2, k3⟩ := layAll_shape V o (V.textual e || t) (d + 1) false true false _ ks h.2 ha hk
      obtain ⟨k4, k5⟩ := layKids_sep o q t (V.textual e) d k1
      refine .some _ _ (gapText_sep o fresh p t d) k4 ?_ rfl
      simp only [gNode, srcGist, asReadNode, gist, gistNode, k5, k3, layAttrs_pairs]
      simp
  | .text s, _, _ =>
    rw [layNode] at hl
    split at hl
    · rename_i hs
      cases hl
      rw [List.isEmpty_iff] at hs
      subst hs
      exact .nothing rfl
    · split at hl
      · cases hl
      · rename_i r hr
        cases hl
        exact layText_shape V o p t d first last hr
  | .style s, h, _ =>
    rw [layNode] at hl
    split at hl
    · rename_i hs
      cases hl
      rw [List.isEmpty_iff] at hs
      subst hs
      exact .nothing rfl
    · split at hl
      · cases hl
      · cases hl
        exact .some _ _ (mkText_gap_sep o p t d) trivial (by rw [srcGist_style]; rfl) rfl
  | .comment s, _, _ =>
    rw [layNode] at hl
    cases hl
    exact .some _ _ (gapText_sep o fresh p t d) trivial rfl rfl
  | .pi _ _, h, _ => exact absurd h id
theorem layAll_shape (V : View E A) (o : Options) (t : Bool) (d : Nat) (prevText start fresh p : Bool) (ns : List (XNode E A))
    (h : SrcsOk V ns) (ha : Aparts ns) {items : List Laid} {q : Bool}
    (hl : layAll V o t d prevText start fresh p ns = .ok (items, q)) :
    SepAll items ∧ (headTextlike ns = false → blankRun items) ∧ gAll items = gist (asRead V ns) := by
  match ns, h, ha with
  | [], _, _ =>
    rw [layAll] at hl
    cases hl
    exact ⟨trivial, fun _ => trivial, rfl⟩
  | n :: ns, h, ha =>
    rw [layAll] at hl
    split at hl
    · cases hl
    · rename_i i1 q1 hk
      split at hl
      · cases hl
      · rename_i i2 q2 hk2
        cases hl
        obtain ⟨k1, k2, k3⟩ := layAll_shape V o t d _ false _ q1 ns h.2 ha.2.1 hk2
        have hsh := layNode_shape V o t d _ _ fresh p n h.1 ha.1 hk
        rw [gist_asRead_cons V n ns ha.2.2, gAll_append, ← k3]
        cases hsh with
        | nothing hg =>
          refine ⟨k1, ?_, by rw [hg]; rfl⟩
          intro hh
          have hn : n.textlike = false := by simpa [headTextlike] using hh
          cases n with
          | text s => simp [XNode.textlike] at hn
          | style s => simp [XNode.textlike] at hn
          | elem e as ks => simp [srcGist, asReadNode, gist, gistNode] at hg
          | comment s => simp [srcGist, asReadNode, gist, gistNode] at hg
          | pi a b => simp [srcGist, asReadNode, gist, gistNode] at hg
        | some b x hb hx hg ht =>
          have hx2 : SepAll (x :: i2) := ⟨hx, k1, fun s hs _ => k2 (ha.2.2 (by rw [← ht, hs]; rfl))⟩
          rw [List.append_assoc]
          refine ⟨sep_blank_cons hb.2 hx2 hb.1, ?_, ?_⟩
          · intro hh
            have hn : n.textlike = false := by simpa [headTextlike] using hh
            refine blankRun_append_blank hb.2.1 ?_
            intro s hs
            rw [hn, hs] at ht
            cases ht
          · rw [gAll_append, hb.2.2, gAll, gAll, hg]
            simp
end

end Verif.Xml
