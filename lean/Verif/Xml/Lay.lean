import Verif.Xml.Spec

/-!
# The writer as a function of the tree

What the state machine writes is the plain printing (`showAll`) of a tree (`layAll`) with the white space made
explicit.
-/

namespace Verif.Xml

set_option linter.unusedSectionVars false

variable {E A : Type}

/-- A tree with all white space: attributes are separator, name, value. -/
abbrev Laid := XNode Str (Str × Str × Str)

/-- Escaped text. -/
def esc (eq sq : Bool) (s : Str) : Str := s.flatMap (Escape.unit eq sq)

/-- The quotation mark. -/
def mark (sq : Bool) : Nat := if sq then 39 else 34

def showAttr (sq : Bool) (a : Str × Str × Str) : Str :=
  a.1 ++ a.2.1 ++ [eqs] ++ [mark sq] ++ esc true sq a.2.2 ++ [mark sq]

def showAttrs (sq : Bool) (as : List (Str × Str × Str)) : Str := as.flatMap (showAttr sq)

mutual
def showNode (sq sc : Bool) : Laid → Str
  | .elem n as ks =>
    if ks.isEmpty && sc then [lt] ++ n ++ showAttrs sq as ++ [slash, gt]
    else [lt] ++ n ++ showAttrs sq as ++ [gt] ++ showAll sq sc ks ++ [lt, slash] ++ n ++ [gt]
  | .text s => esc false false s
  | .style s => s
  | .comment s => [lt, bang, dash, dash] ++ s ++ [dash, dash, gt]
  | .pi t d => [lt, quest] ++ t ++ piData d ++ [quest, gt]
def showAll (sq sc : Bool) : List Laid → Str
  | [] => []
  | n :: ns => showNode sq sc n ++ showAll sq sc ns
end

/-- Indentation where it is not suppressed. -/
def ind (i : Indent) (p t : Bool) (d : Nat) : Str :=
  if i = .none || p || t then [] else (List.replicate d i.unit).flatten

/-- A new line with indentation where it is not suppressed. -/
def gap (o : Options) (p t : Bool) (d : Nat) : Str :=
  if o.indent = .none || p || t then [] else nl :: (List.replicate d o.indent.unit).flatten

/-- White space before an attribute of an element at depth `d`. -/
def sepOf (o : Options) (p t : Bool) (d : Nat) : Str :=
  if o.attrIndent = .none then [sp] else nl :: (ind o.indent p t d ++ ind o.attrIndent p t 1)

/-- Attributes with what precedes them; the result includes the new state of `preserve`. -/
def layAttrs (V : View E A) (o : Options) (t : Bool) (d : Nat) : Bool → List A → List (Str × Str × Str) × Bool
  | p, [] => ([], p)
  | p, a :: as =>
    let p := spaceAfter V o p a
    let r := layAttrs V o t d p as
    ((sepOf o p t d, V.aname a, V.avalue a) :: r.1, r.2)

/-- Nothing for the empty text. -/
def mkText (s : Str) : List Laid := if s.isEmpty then [] else [.text s]

/-- Words with single spaces between. -/
def joinWords : List Str → Str
  | [] => []
  | p :: ps => p ++ ps.flatMap fun p => sp :: p

/-- The text with collapsed white space. -/
def collapse (o : Options) (first last : Bool) (s : Str) : Str :=
  (if !first && o.indent == Indent.none && leading s then [sp] else []) ++ joinWords (splitWhitespace s) ++
    (if !last && o.indent == Indent.none && trailing s then [sp] else [])

/-- Which treatment of white space applies. -/
def mode (o : Options) (p : Bool) : Space :=
  match o.trim with
  | .auto => if p then .preserve else .standard
  | m => m

/-- A text that is not empty. -/
def layText (o : Options) (p t : Bool) (d : Nat) (first last : Bool) (s : Str) : Except Err (List Laid) :=
  match mode o p with
  | .standard =>
    if s.all isWhitespace then .ok []
    else if d = 0 then .error .textBeforeElement
    else .ok (mkText (gap o p t d) ++ [.text (collapse o first last s)])
  | .preserve => if d = 0 then .error .textBeforeElement else .ok [.text (s.map flatten)]
  | .never => if d = 0 then .error .textBeforeElement else .ok (mkText (gap o p t d) ++ [.text s])
  | .auto => .ok []

/-- The gap before a node; none at the very beginning. -/
def gapText (o : Options) (fresh p t : Bool) (d : Nat) : List Laid := if fresh then [] else mkText (gap o p t d)

/-- What stands in an element. -/
def layKids (o : Options) (p t textual : Bool) (d : Nat) (items : List Laid) : List Laid :=
  if items.isEmpty && o.selfClosing then []
  else if !p && !textual then items ++ mkText (gap o p t d) else items

mutual
/-- What is written for a node at depth `d`, below a textual element if `t`; `fresh`: nothing has been written. -/
def layNode (V : View E A) (o : Options) (t : Bool) (d : Nat) (first last fresh p : Bool) :
    XNode E A → Except Err (List Laid × Bool)
  | .elem e as ks =>
    match layAll V o (V.textual e || t) (d + 1) false true false (layAttrs V o (V.textual e || t) d p as).2 ks with
    | .error err => .error err
    | .ok (items, q) =>
      .ok (gapText o fresh p t d ++
        [.elem (V.ename e) (layAttrs V o (V.textual e || t) d p as).1 (layKids o q t (V.textual e) d items)], q)
  | .text s => if s.isEmpty then .ok ([], p) else
    match layText o p t d first last s with
    | .error err => .error err
    | .ok items => .ok (items, p)
  | .style s => if s.isEmpty then .ok ([], p)
    else if d = 0 then .error .textBeforeElement else .ok (mkText (gap o p t d) ++ [.style s], p)
  | .comment s => .ok (gapText o fresh p t d ++ [.comment s], p)
  | .pi tg v => if fresh then .ok ([.pi tg v], p) else .error .declarationAlreadyWritten
def layAll (V : View E A) (o : Options) (t : Bool) (d : Nat) (prevText start fresh p : Bool) :
    List (XNode E A) → Except Err (List Laid × Bool)
  | [] => .ok ([], p)
  | n :: ns =>
    match layNode V o t d (start || prevText) (ns.isEmpty || (ns.head?.map XNode.isText).getD false) fresh p n with
    | .error err => .error err
    | .ok (items, q) =>
      match layAll V o t d n.isText false (fresh && items.isEmpty) q ns with
      | .error err => .error err
      | .ok (rest, q) => .ok (items ++ rest, q)
end

/-! ## Equality -/

/-- The writer after items have been written. -/
def W.after (w : W E) (s : Str) (p : Bool) : W E :=
  { w.closeTag with out := w.closeTag.out ++ s, state := .document, preserve := p }

/-- The states between the operations of the serialiser. -/
def Ready (w : W E) : Prop :=
  (w.state = .empty → w.stack = []) ∧ (w.state = .attributes → ∃ e rest, w.stack = (some e, false) :: rest)

theorem ind_eq (V : View E A) (w : W E) (d : Nat) (i : Indent) :
    w.writeIndent V d i = { w with out := w.out ++ ind i w.preserve (w.textual V) d } := by
  unfold W.writeIndent ind W.put
  split
  · simp
  · rfl

theorem closeTag_textual (V : View E A) (w : W E) (h : Ready w) : w.closeTag.textual V = w.textual V := by
  unfold W.closeTag
  split
  · rename_i hs
    obtain ⟨e, rest, hr⟩ := h.2 hs
    simp [W.openElement, hr, W.textual, textualEntry]
  · rfl

theorem closeTag_length (w : W E) (h : Ready w) : w.closeTag.stack.length = w.stack.length := by
  unfold W.closeTag
  split
  · rename_i hs
    obtain ⟨e, rest, hr⟩ := h.2 hs
    simp [W.openElement, hr]
  · rfl

theorem closeTag_preserve (w : W E) : w.closeTag.preserve = w.preserve := by
  unfold W.closeTag W.openElement
  split
  · split <;> rfl
  · rfl

theorem closeTag_state (w : W E) (h : Ready w) : w.closeTag.state = if w.state = .empty then .empty else .document := by
  unfold W.closeTag
  split
  · rename_i hs
    obtain ⟨e, rest, hr⟩ := h.2 hs
    simp [W.openElement, hr, hs]
  · rename_i hs
    cases hst : w.state <;> simp_all

/-- The gap before a node. -/
def gapStr (o : Options) (fresh p t : Bool) (d : Nat) : Str := if fresh then [] else gap o p t d

theorem show_mkText (sq sc : Bool) {s : Str} (hs : ∀ c ∈ s, isS c = true) : showAll sq sc (mkText s) = s := by
  unfold mkText
  split
  · rename_i h
    simp only [showAll]
    cases s <;> simp_all
  · simp only [showAll, showNode, List.append_nil]
    induction s with
    | nil => rfl
    | cons c s ih =>
      have hc := hs c (by simp)
      have : Escape.unit false false c = [c] := by
        unfold Escape.unit Escape.escapedChar Escape.amp Escape.gt Escape.lt
        simp only [isS, Bool.or_eq_true, beq_iff_eq] at hc
        have h1 : c ≠ 38 := by omega
        have h2 : c ≠ 62 := by omega
        have h3 : c ≠ 60 := by omega
        simp [h1, h2, h3]
      simp only [esc, List.flatMap_cons, this]
      by_cases hn : s = []
      · subst hn; rfl
      · have := ih (fun x hx => hs x (by simp [hx])) (by simpa using hn)
        unfold esc at this
        rw [this]; rfl

theorem unit_space (i : Indent) : ∀ c ∈ i.unit, isS c = true := by
  intro c hc
  cases i with
  | none => simp [Indent.unit] at hc
  | spaces n => simp [Indent.unit] at hc; rw [hc.2]; rfl
  | tabs => simp [Indent.unit] at hc; rw [hc]; rfl

theorem ind_space (i : Indent) (p t : Bool) (d : Nat) : ∀ c ∈ ind i p t d, isS c = true := by
  intro c hc
  unfold ind at hc
  split at hc
  · simp at hc
  · simp only [List.mem_flatten, List.mem_replicate] at hc
    obtain ⟨l, ⟨_, rfl⟩, h⟩ := hc
    exact unit_space i c h

theorem gap_space (o : Options) (p t : Bool) (d : Nat) : ∀ c ∈ gap o p t d, isS c = true := by
  intro c hc
  unfold gap at hc
  split at hc
  · simp at hc
  · simp only [List.mem_cons, List.mem_flatten, List.mem_replicate] at hc
    rcases hc with rfl | ⟨l, ⟨_, rfl⟩, h⟩
    · rfl
    · exact unit_space _ c h

theorem show_gapText (sq sc : Bool) (o : Options) (fresh p t : Bool) (d : Nat) :
    showAll sq sc (gapText o fresh p t d) = gapStr o fresh p t d := by
  unfold gapText gapStr
  split
  · rfl
  · exact show_mkText sq sc (gap_space o p t d)

theorem showAll_append (sq sc : Bool) (a b : List Laid) : showAll sq sc (a ++ b) = showAll sq sc a ++ showAll sq sc b := by
  induction a with
  | nil => rfl
  | cons n a ih => simp only [List.cons_append, showAll, ih, List.append_assoc]

/-- Newline and indentation after the parent's tag is closed. -/
theorem before_node (V : View E A) (o : Options) (w : W E) (h : Ready w) :
    (w.closeTag.lineBreak V o).writeNodeIndent V o =
      w.closeTag.put (gapStr o (w.state = .empty) w.preserve (w.textual V) w.stack.length) := by
  have hs := closeTag_state w h
  have ht := closeTag_textual V w h
  have hl := closeTag_length w h
  have hp := closeTag_preserve w
  unfold W.put W.writeNodeIndent
  rw [ind_eq]
  unfold W.lineBreak
  by_cases he : w.state = .empty
  · have hst := h.1 he
    simp only [he, if_true] at hs
    simp only [hs, he, ne_eq, not_true, if_false, gapStr, decide_true, if_true]
    rw [hl, hst]
    simp [ind, hs]
  · simp only [he, if_false] at hs
    simp only [hs, he, ne_eq, reduceCtorEq, not_false_eq_true, if_true, gapStr, decide_false, Bool.false_eq_true, if_false]
    unfold W.newLine
    by_cases hc : o.indent = .none
    · simp [hc, ind, gap, hs]
    · cases hpr : w.preserve <;> cases htx : w.textual V
      · have : w.closeTag.preserve = false := by rw [hp, hpr]
        have h2 : w.closeTag.textual V = false := by rw [ht, htx]
        simp only [ne_eq, hc, not_false_eq_true, decide_true, this, h2, Bool.not_false, Bool.and_self, if_true, W.put, gap,
          Bool.or_self, decide_false, Bool.false_eq_true, if_false, ind]
        have h3 : ∀ x y, W.textual V (⟨x, y, false, w.closeTag.stack⟩ : W E) = false := fun _ _ => h2
        simp [h3, hl, hs]
      · have h2 : w.closeTag.textual V = true := by rw [ht, htx]
        simp [h2, ind, gap, hs]
      · have : w.closeTag.preserve = true := by rw [hp, hpr]
        simp [this, ind, gap, hs]
      · have : w.closeTag.preserve = true := by rw [hp, hpr]
        simp [this, ind, gap, hs]

/-- The result of writing items. -/
def W.wrote (o : Options) (w : W E) (items : List Laid) (p : Bool) : W E :=
  if items.isEmpty then { w with preserve := p } else w.after (showAll o.singleQuote o.selfClosing items) p

theorem lineBreak_textual (V : View E A) (o : Options) (w : W E) : (w.lineBreak V o).textual V = w.textual V := by
  unfold W.lineBreak W.newLine
  split
  · split <;> rfl
  · rfl

theorem lineBreak_preserve (V : View E A) (o : Options) (w : W E) : (w.lineBreak V o).preserve = w.preserve := by
  unfold W.lineBreak W.newLine
  split
  · split <;> rfl
  · rfl

theorem start_eq (V : View E A) (o : Options) (w : W E) (h : Ready w) (e : E) :
    w.startElement V o e =
      ⟨w.closeTag.out ++ (gapStr o (w.state = .empty) w.preserve (w.textual V) w.stack.length ++ [lt] ++ V.ename e),
        .attributes, w.preserve, (some e, false) :: w.closeTag.stack⟩ := by
  unfold W.startElement
  have hi : (if !(w.closeTag.lineBreak V o).preserve && !(w.closeTag.lineBreak V o).textual V then
      (w.closeTag.lineBreak V o).writeNodeIndent V o else w.closeTag.lineBreak V o) =
      (w.closeTag.lineBreak V o).writeNodeIndent V o := by
    split
    · rfl
    · rename_i hc
      unfold W.writeNodeIndent
      rw [ind_eq]
      unfold ind
      have : ((w.closeTag.lineBreak V o).preserve || (w.closeTag.lineBreak V o).textual V) = true := by
        cases h1 : (w.closeTag.lineBreak V o).preserve <;> cases h2 : (w.closeTag.lineBreak V o).textual V <;> simp_all
      rw [Bool.or_assoc, this]
      simp
  simp only [hi]
  rw [before_node V o w h]
  simp [W.put, closeTag_preserve]

theorem attributes_eq (V : View E A) (o : Options) (e : E) (stk : List (Option E × Bool)) (as : List A) :
    ∀ (out : Str) (p : Bool),
    writeAttributes V o as ⟨out, .attributes, p, (some e, false) :: stk⟩ =
      .ok ⟨out ++ showAttrs o.singleQuote (layAttrs V o (V.textual e || stk.any (textualEntry V)) stk.length p as).1,
        .attributes, (layAttrs V o (V.textual e || stk.any (textualEntry V)) stk.length p as).2, (some e, false) :: stk⟩ := by
  induction as with
  | nil => intro out p; simp [writeAttributes, layAttrs, showAttrs]
  | cons a as ih =>
    intro out p
    have step : W.writeAttribute V o ⟨out, .attributes, p, (some e, false) :: stk⟩ a =
        .ok ⟨out ++ showAttr o.singleQuote (sepOf o (spaceAfter V o p a) (V.textual e || stk.any (textualEntry V)) stk.length,
          V.aname a, V.avalue a), .attributes, spaceAfter V o p a, (some e, false) :: stk⟩ := by
      have htx : ∀ x y z b, W.textual V (⟨x, y, z, (some e, b) :: stk⟩ : W E) = (V.textual e || stk.any (textualEntry V)) := by
        intro x y z b; simp [W.textual, textualEntry]
      have hq : quote o = mark o.singleQuote := rfl
      unfold W.writeAttribute W.attributePrefix
      simp only [ne_eq, not_true, if_false, W.put, ind_eq, htx, List.length_cons, Nat.zero_lt_succ, if_true, gt_iff_lt,
        Nat.add_sub_cancel, hq]
      by_cases hai : o.attrIndent = .none
      · simp only [hai, if_true, Escape.writeEscaped_eq, showAttr, sepOf, esc]
        simp
      · simp only [hai, if_false, Escape.writeEscaped_eq, showAttr, sepOf, esc]
        simp
    simp only [writeAttributes, step, bind, Except.bind, ih, layAttrs, showAttrs, List.flatMap_cons, List.append_assoc]

theorem before_text (V : View E A) (o : Options) (w : W E) (h : Ready w) :
    w.beforeText V o = if w.stack.length = 0 then .error .textBeforeElement
      else .ok (w.closeTag.put (gap o w.preserve (w.textual V) w.stack.length)) := by
  unfold W.beforeText
  rw [before_node V o w h]
  by_cases hl : w.stack.length = 0
  · have : w.stack = [] := List.eq_nil_of_length_eq_zero hl
    simp [this]
  · have h1 : w.stack ≠ [] := fun e => hl (by simp [e])
    have h2 : w.state ≠ .empty := fun e => h1 (h.1 e)
    simp [hl, h1, h2, gapStr]

theorem putText_eq (w : W E) (s : Str) : w.putText s = w.put (esc false false s) := by
  simp [W.putText, Escape.writeEscaped_eq, W.put, esc]

theorem put_put (w : W E) (a b : Str) : (w.put a).put b = w.put (a ++ b) := by
  simp [W.put]

theorem put_nil (w : W E) : w.put [] = w := by
  simp [W.put]

theorem esc_append (eq sq : Bool) (a b : Str) : esc eq sq (a ++ b) = esc eq sq a ++ esc eq sq b := by
  simp [esc]

theorem putParts_eq (w : W E) (ps : List Str) : w.putParts ps = w.put (esc false false (ps.flatMap fun p => sp :: p)) := by
  induction ps generalizing w with
  | nil => simp [W.putParts, esc, put_nil]
  | cons p ps ih =>
    have : w.putParts (p :: ps) = ((w.putText [sp]).putText p).putParts ps := rfl
    rw [this, ih]
    simp only [putText_eq, put_put, List.flatMap_cons]
    rw [← esc_append, ← esc_append]
    simp

theorem foldl_put (s : Str) : ∀ w : W E, s.foldl (fun w c => w.putText [flatten c]) w = w.put (esc false false (s.map flatten)) := by
  induction s with
  | nil => intro w; simp [esc, put_nil]
  | cons c s ih =>
    intro w
    rw [List.foldl_cons, ih, putText_eq, put_put, ← esc_append]
    rfl

theorem showText (sq sc : Bool) (o : Options) (p t : Bool) (d : Nat) (s : Str) :
    showAll sq sc (mkText (gap o p t d) ++ [.text s]) = gap o p t d ++ esc false false s := by
  rw [showAll_append, show_mkText sq sc (gap_space o p t d)]
  simp [showAll, showNode]

theorem mkText_ne (l : List Laid) (n : Laid) : (l ++ [n]).isEmpty = false := by
  cases l <;> rfl

theorem splitGo_nil (s : Str) : (splitGo s).1 = [] ∧ (splitGo s).2 = [] ↔ s.all isWhitespace = true := by
  induction s with
  | nil => simp [splitGo]
  | cons c s ih =>
    simp only [splitGo, List.all_cons]
    cases hc : isWhitespace c with
    | false => simp
    | true =>
      simp only [if_true, true_and, Bool.true_and, ← ih]
      cases h : (splitGo s).1 <;> simp

theorem splitWhitespace_nil (s : Str) : splitWhitespace s = [] ↔ s.all isWhitespace = true := by
  rw [← splitGo_nil]
  unfold splitWhitespace
  cases h : (splitGo s).1 <;> simp [h]

theorem standard_eq (V : View E A) (o : Options) (w : W E) (h : Ready w) (s : Str) (first last : Bool) :
    w.textStandard V o s first last =
      if s.all isWhitespace then .ok w
      else if w.stack.length = 0 then .error .textBeforeElement
      else .ok (w.wrote o (mkText (gap o w.preserve (w.textual V) w.stack.length) ++ [.text (collapse o first last s)]) w.preserve) := by
  unfold W.textStandard
  rw [before_text V o w h]
  split
  · rfl
  · split
    · rfl
    · simp only [bind, Except.bind, pure, Except.pure, W.wrote, mkText_ne, Bool.false_eq_true, if_false, showText]
      congr 1
      unfold W.after collapse
      have hp := closeTag_preserve w
      cases hw : splitWhitespace s with
      | nil =>
        rename_i hnb _
        exact absurd ((splitWhitespace_nil s).1 hw) hnb
      | cons q qs =>
        simp only [putText_eq, putParts_eq]
        cases ha : (!first && o.indent == Indent.none && leading s) <;>
          cases hb : (!last && o.indent == Indent.none && trailing s) <;>
          simp [W.put, joinWords, hp, esc]

theorem preserve_eq (V : View E A) (o : Options) (w : W E) (h : Ready w) (s : Str) :
    w.textPreserve V o s =
      if w.stack.length = 0 then .error .textBeforeElement
      else .ok (w.wrote o [.text (s.map flatten)] w.preserve) := by
  unfold W.textPreserve
  rw [before_text V _ w h]
  split
  · rfl
  · simp only [bind, Except.bind, pure, Except.pure, W.wrote, List.isEmpty_cons, Bool.false_eq_true, if_false, foldl_put,
      gap, decide_true, Bool.true_or, if_true, put_nil]
    unfold W.after W.put
    simp [showAll, showNode, closeTag_preserve]

theorem never_eq (V : View E A) (o : Options) (w : W E) (h : Ready w) (s : Str) :
    w.textNever V o s =
      if w.stack.length = 0 then .error .textBeforeElement
      else .ok (w.wrote o (mkText (gap o w.preserve (w.textual V) w.stack.length) ++ [.text s]) w.preserve) := by
  unfold W.textNever
  rw [before_text V _ w h]
  split
  · rfl
  · simp only [bind, Except.bind, pure, Except.pure, W.wrote, mkText_ne, Bool.false_eq_true, if_false, showText, putText_eq,
      put_put]
    unfold W.after W.put
    simp [closeTag_preserve]

theorem wrote_nil (o : Options) (w : W E) : w.wrote o [] w.preserve = w := by
  simp [W.wrote]

/-- The relation between the writer and the laid out tree. -/
def Result (o : Options) (w : W E) : Except Err (List Laid × Bool) → Except Err (W E)
  | .error e => .error e
  | .ok (items, p) => .ok (w.wrote o items p)

theorem text_eq (V : View E A) (o : Options) (w : W E) (h : Ready w) (s : Str) (first last : Bool) :
    w.writeText V o s first last =
      match layText o w.preserve (w.textual V) w.stack.length first last s with
      | .error e => .error e
      | .ok items => .ok (w.wrote o items w.preserve) := by
  unfold W.writeText layText mode
  cases o.trim with
  | never =>
    simp only [never_eq V o w h]
    split <;> simp_all
  | standard =>
    simp only [standard_eq V o w h]
    repeat' split
    all_goals simp_all [wrote_nil]
  | preserve =>
    simp only [preserve_eq V o w h]
    split <;> simp_all
  | auto =>
    cases hp : w.preserve with
    | true =>
      simp only [if_true, preserve_eq V o w h, hp]
      split <;> simp_all
    | false =>
      simp only [Bool.false_eq_true, if_false, standard_eq V o w h, hp]
      have := wrote_nil o w
      rw [hp] at this
      repeat' split
      all_goals simp_all

theorem style_eq (V : View E A) (o : Options) (w : W E) (h : Ready w) (s : Str) :
    w.writeStyle V o s =
      if s.isEmpty then .ok w
      else if w.stack.length = 0 then .error .textBeforeElement
      else .ok (w.wrote o (mkText (gap o w.preserve (w.textual V) w.stack.length) ++ [.style s]) w.preserve) := by
  unfold W.writeStyle
  rw [before_text V _ w h]
  split
  · rfl
  · split
    · rfl
    · rename_i hl
      simp only [bind, Except.bind, pure, Except.pure, W.wrote, mkText_ne, Bool.false_eq_true, if_false, put_put]
      congr 1
      have hs := closeTag_state w h
      have h2 : w.state ≠ .empty := fun e => hl (by rw [h.1 e]; rfl)
      rw [if_neg h2] at hs
      rw [showAll_append, show_mkText _ _ (gap_space o _ _ _)]
      unfold W.after W.put
      simp [closeTag_preserve, showAll, showNode, hs]

theorem comment_eq (V : View E A) (o : Options) (w : W E) (h : Ready w) (s : Str) :
    w.writeComment V o s = w.wrote o (gapText o (w.state = .empty) w.preserve (w.textual V) w.stack.length ++ [.comment s]) w.preserve := by
  unfold W.writeComment
  have hs := closeTag_state w h
  have hna : w.closeTag.state ≠ .attributes := by
    rw [hs]; split <;> simp
  simp only [before_node V o w h, put_put, W.wrote, mkText_ne, Bool.false_eq_true, if_false]
  have : ∀ x, (w.closeTag.put x).state ≠ .attributes := fun _ => hna
  simp only [this, if_false]
  unfold W.after
  rw [showAll_append, show_gapText]
  simp [W.put, closeTag_preserve, showAll, showNode]

theorem Ready.wrote {o : Options} {w : W E} (h : Ready w) (items : List Laid) (p : Bool) : Ready (w.wrote o items p) := by
  unfold W.wrote
  split
  · exact h
  · unfold W.after
    exact ⟨by simp, by simp⟩

theorem wrote_textual (V : View E A) (o : Options) {w : W E} (h : Ready w) (items : List Laid) (p : Bool) :
    (w.wrote o items p).textual V = w.textual V := by
  unfold W.wrote
  split
  · rfl
  · exact closeTag_textual V w h

theorem wrote_length (o : Options) {w : W E} (h : Ready w) (items : List Laid) (p : Bool) :
    (w.wrote o items p).stack.length = w.stack.length := by
  unfold W.wrote
  split
  · rfl
  · exact closeTag_length w h

theorem wrote_preserve (o : Options) (w : W E) (items : List Laid) (p : Bool) : (w.wrote o items p).preserve = p := by
  unfold W.wrote
  split <;> rfl

theorem wrote_state (o : Options) (w : W E) (items : List Laid) (p : Bool) :
    decide ((w.wrote o items p).state = .empty) = (decide (w.state = .empty) && items.isEmpty) := by
  unfold W.wrote
  split
  · rename_i h; simp [h]
  · rename_i h; simp [h, W.after]

theorem wrote_wrote (o : Options) {w : W E} (a b : List Laid) (p q : Bool) :
    (w.wrote o a p).wrote o b q = w.wrote o (a ++ b) q := by
  unfold W.wrote
  cases ha : a with
  | nil =>
    cases hb : b with
    | nil => simp
    | cons y ys =>
      simp only [List.isEmpty_nil, if_true, List.isEmpty_cons, Bool.false_eq_true, if_false, List.nil_append]
      unfold W.after W.closeTag W.openElement
      obtain ⟨out, st, p0, stk⟩ := w
      cases st <;> cases stk <;> simp
  | cons x xs =>
    cases hb : b with
    | nil => simp [W.after]
    | cons y ys =>
      simp only [List.isEmpty_cons, Bool.false_eq_true, if_false, List.cons_append]
      have hc : ∀ s p, (w.after s p).closeTag = w.after s p := by
        intro s p
        unfold W.closeTag W.after
        simp
      have e : x :: (xs ++ y :: ys) = (x :: xs) ++ (y :: ys) := rfl
      rw [e, showAll_append]
      generalize showAll o.singleQuote o.selfClosing (x :: xs) = s1
      generalize showAll o.singleQuote o.selfClosing (y :: ys) = s2
      rw [W.after, hc]
      simp [W.after]

mutual
theorem serializeNode_eq (V : View E A) (o : Options) (first last : Bool) (n : XNode E A) (w : W E) (h : Ready w) :
    serializeNode V o first last n w =
      Result o w (layNode V o (w.textual V) w.stack.length first last (w.state = .empty) w.preserve n) := by
  match n with
  | .text s =>
    simp only [serializeNode, layNode]
    split
    · simp [Result, wrote_nil]
    · rw [text_eq V o w h]
      cases layText o w.preserve (w.textual V) w.stack.length first last s <;> rfl
  | .style s =>
    simp only [serializeNode, layNode, style_eq V o w h]
    split
    · simp [Result, wrote_nil]
    · split <;> rfl
  | .comment s =>
    simp only [serializeNode, layNode, comment_eq V o w h, Result]
  | .pi t d =>
    simp only [serializeNode, layNode, W.declaration]
    by_cases he : w.state = .empty
    · simp only [he, ne_eq, not_true, if_false, decide_true, if_true, Result, W.wrote, List.isEmpty_cons, Bool.false_eq_true]
      have hc : w.closeTag = w := by unfold W.closeTag; simp [he]
      simp [W.after, hc, W.put, showAll, showNode]
    · simp [he, Result]
  | .elem e as ks =>
    have hcl := closeTag_length w h
    have hct := closeTag_textual V w h
    have htx : (V.textual e || w.closeTag.stack.any (textualEntry V)) = (V.textual e || w.textual V) := by
      rw [← hct]; rfl
    simp only [serializeNode, layNode, start_eq V o w h, attributes_eq, bind, Except.bind, htx, hcl]
    generalize hA : layAttrs V o (V.textual e || w.textual V) w.stack.length w.preserve as = LA
    obtain ⟨la, p1⟩ := LA
    simp only
    generalize hW : (⟨w.closeTag.out ++ (gapStr o (w.state = .empty) w.preserve (w.textual V) w.stack.length ++ [lt] ++ V.ename e) ++
      showAttrs o.singleQuote la, .attributes, p1, (some e, false) :: w.closeTag.stack⟩ : W E) = w1
    have hR : Ready w1 := by
      rw [← hW]
      exact ⟨by simp, fun _ => ⟨_, _, rfl⟩⟩
    have ht1 : w1.textual V = (V.textual e || w.textual V) := by
      rw [← hW, ← hct]
      simp [W.textual, textualEntry]
    have hl1 : w1.stack.length = w.stack.length + 1 := by rw [← hW]; simp [hcl]
    have hs1 : w1.state = .attributes := by rw [← hW]
    have hp1 : w1.preserve = p1 := by rw [← hW]
    have ih := serializeAll_eq V o false true ks w1 hR
    rw [ht1, hl1, hs1, hp1] at ih
    simp only [reduceCtorEq, decide_false] at ih
    rw [ih]
    cases hk : layAll V o (V.textual e || w.textual V) (w.stack.length + 1) false true false p1 ks with
    | error err => simp [Result]
    | ok r =>
      obtain ⟨items, q⟩ := r
      simp only [Result]
      -- closing
      have hgap : ∀ out st, (W.newLine V o (⟨out, st, q, w.closeTag.stack⟩ : W E)).writeNodeIndent V o =
          ⟨out ++ gap o q (w.textual V) w.stack.length, st, q, w.closeTag.stack⟩ := by
        intro out st
        have ht2 : ∀ x, W.textual V (⟨x, st, q, w.closeTag.stack⟩ : W E) = w.textual V := fun _ => hct
        unfold W.writeNodeIndent
        rw [ind_eq]
        unfold W.newLine gap ind W.put
        rw [ht2]
        cases q <;> cases hh : w.textual V <;> by_cases hi : o.indent = .none <;> simp [hi, hh, ht2, hcl] <;> simp [W.textual] at * <;> simp_all
      cases items with
      | nil =>
        have hwr : w1.wrote o [] q = ⟨w1.out, .attributes, q, (some e, false) :: w.closeTag.stack⟩ := by
          simp [W.wrote, ← hW]
        rw [hwr]
        unfold W.endElement
        simp only [Bool.false_or, Bool.not_false, Bool.true_and]
        cases hsc : o.selfClosing with
        | true =>
          simp only [Bool.not_true, Bool.false_eq_true, if_false, layKids, List.isEmpty_nil, Bool.true_and, hsc, if_true]
          congr 1
          unfold W.wrote
          simp only [mkText_ne, Bool.false_eq_true, if_false]
          rw [showAll_append, show_gapText]
          simp [W.after, W.put, showAll, showNode, hsc, ← hW]
        | false =>
          simp only [Bool.not_false, if_true, layKids, List.isEmpty_nil, Bool.true_and, hsc, Bool.false_eq_true, if_false,
            W.put, textualEntry]
          cases hq : (!q && !V.textual e) with
          | false =>
            simp only [Bool.false_eq_true, if_false]
            congr 1
            unfold W.wrote
            simp only [mkText_ne, Bool.false_eq_true, if_false]
            rw [showAll_append, show_gapText]
            simp [W.after, W.put, showAll, showNode, hsc, ← hW]
          | true =>
            simp only [if_true, hgap]
            congr 1
            unfold W.wrote
            simp only [mkText_ne, Bool.false_eq_true, if_false]
            rw [showAll_append, show_gapText]
            simp [W.after, W.put, showAll, showNode, hsc, ← hW, show_mkText _ _ (gap_space o _ _ _)]
      | cons i is =>
        have hwr : w1.wrote o (i :: is) q = ⟨w1.out ++ [gt] ++ showAll o.singleQuote o.selfClosing (i :: is), .document, q,
            (some e, true) :: w.closeTag.stack⟩ := by
          simp [W.wrote, W.after, W.closeTag, hs1, W.openElement, ← hW]
        rw [hwr]
        unfold W.endElement
        simp only [Bool.true_or, if_true, Bool.not_true, Bool.false_and, Bool.false_eq_true, if_false, textualEntry]
        have hkids : layKids o q (w.textual V) (V.textual e) w.stack.length (i :: is) =
            if !q && !V.textual e then (i :: is) ++ mkText (gap o q (w.textual V) w.stack.length) else i :: is := by
          simp [layKids]
        rw [hkids]
        cases hq : (!q && !V.textual e) with
        | false =>
          simp only [Bool.false_eq_true, if_false]
          congr 1
          unfold W.wrote
          simp only [mkText_ne, Bool.false_eq_true, if_false]
          rw [showAll_append, show_gapText]
          simp [W.after, W.put, showAll, showNode, ← hW]
        | true =>
          simp only [if_true, hgap]
          congr 1
          unfold W.wrote
          simp only [mkText_ne, Bool.false_eq_true, if_false]
          rw [showAll_append, show_gapText]
          have hne : ((i :: is) ++ mkText (gap o q (w.textual V) w.stack.length)).isEmpty = false := rfl
          simp only [showAll, showNode, hne, Bool.false_and, Bool.false_eq_true, if_false, showAll_append,
            show_mkText _ _ (gap_space o _ _ _)]
          simp [W.after, W.put, ← hW]
theorem serializeAll_eq (V : View E A) (o : Options) (prevText start : Bool) (ns : List (XNode E A)) (w : W E)
    (h : Ready w) :
    serializeAll V o prevText start ns w =
      Result o w (layAll V o (w.textual V) w.stack.length prevText start (w.state = .empty) w.preserve ns) := by
  match ns with
  | [] => simp [serializeAll, layAll, Result, wrote_nil]
  | n :: ns =>
    simp only [serializeAll, layAll, bind, Except.bind]
    rw [serializeNode_eq V o _ _ n w h]
    generalize layNode V o (w.textual V) w.stack.length (start || prevText) _ _ w.preserve n = r
    cases r with
    | error err => rfl
    | ok r =>
      obtain ⟨items, q⟩ := r
      simp only [Result]
      rw [serializeAll_eq V o n.isText false ns _ (h.wrote items q), wrote_textual V o h, wrote_length o h, wrote_preserve,
        wrote_state]
      cases layAll V o (w.textual V) w.stack.length n.isText false (decide (w.state = .empty) && items.isEmpty) q ns with
      | error err => rfl
      | ok r' => simp only [Result, wrote_wrote]
end

/-- The whole document: what is laid out at the top, then a line end. -/
def layDoc (V : View E A) (o : Options) (doc : List (XNode E A)) : Except Err (List Laid) :=
  match layAll V o false 0 false true true false doc with
  | .error e => .error e
  | .ok (items, p) => .ok (items ++ mkText (gap o p false 0))

theorem serialize_eq (V : View E A) (o : Options) (doc : List (XNode E A)) :
    serialize V o doc = (layDoc V o doc).map (showAll o.singleQuote o.selfClosing) := by
  have hR : Ready (W.new : W E) := ⟨fun _ => rfl, by simp [W.new]⟩
  unfold serialize layDoc
  rw [serializeAll_eq V o false true doc W.new hR]
  have h1 : (W.new : W E).textual V = false := rfl
  have h2 : (W.new : W E).stack.length = 0 := rfl
  have h3 : decide ((W.new : W E).state = .empty) = true := rfl
  have h4 : (W.new : W E).preserve = false := rfl
  rw [h1, h2, h3, h4]
  cases layAll V o false 0 false true true false doc with
  | error e => rfl
  | ok r =>
    obtain ⟨items, p⟩ := r
    simp only [Result, bind, Except.bind, Except.map]
    have hl : (W.wrote o (W.new : W E) items p).stack.length = 0 := by rw [wrote_length o hR]; rfl
    have ht : (W.wrote o (W.new : W E) items p).textual V = false := by rw [wrote_textual V o hR]; rfl
    rw [hl]
    simp only [W.endDocument, W.newLine, wrote_preserve, ht]
    rw [showAll_append, show_mkText _ _ (gap_space o _ _ _)]
    have hout : (W.wrote o (W.new : W E) items p).out = showAll o.singleQuote o.selfClosing items := by
      unfold W.wrote
      cases items with
      | nil => rfl
      | cons i is => simp [W.after, W.closeTag, W.new]
    unfold gap
    by_cases hi : o.indent = .none
    · simp [hi, hout]
    · cases p <;> simp [hi, hout, W.put]

end Verif.Xml
