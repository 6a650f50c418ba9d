import Verif.Actions.Codec
import Verif.Number.Props
import Verif.ListOf.Model

/-!
# C29: recorded actions are read back; C38: command lists are read as they are written
-/

namespace Verif.Actions

variable {N : Type}

/-- An action that inserts an element. -/
def Action.IsInsert (a : Action N) : Prop := ∃ name, a = .insert name

theorem argOf_embedArg (t : String) : argOf (embedArg t) = .ok t := by
  simp [argOf, embedArg, assertElement, textContent, textContents]

theorem args_embed (sh : N → String) (a : Action N) :
    (childrenOf (embed sh a)).map argOf = (a.args sh).map Except.ok := by
  have h : ∀ l : List String, (l.map embedArg).filter isElem = l.map embedArg := by
    intro l
    rw [List.filter_eq_self]
    intro x hx
    obtain ⟨t, _, rfl⟩ := List.mem_map.1 hx
    rfl
  simp only [childrenOf, embed, h, List.map_map]
  exact List.map_congr_left fun t _ => argOf_embedArg t

theorem fromState_embed (read : String → Option N) (sh : N → String) (a : Action N) :
    fromState read (embed sh a) = fromParts read a.name ((a.args sh).map Except.ok) := by
  rw [← args_embed]
  simp [fromState, embed, assertElement, oxvgAttr, List.lookup]

/-- **C29 (an action).** An action stored in the document is read as itself if and only if it is not `Insert`;
numbers need only be read as they were written. -/
theorem readBack_iff {read : String → Option N} {sh : N → String} (h : ∀ n, read (sh n) = some n) (a : Action N) :
    fromState read (embed sh a) = .ok a ↔ ¬ a.IsInsert := by
  rw [fromState_embed]
  cases a with
  | insert name => simp [fromParts, Action.name, Action.IsInsert]
  | translate x y => cases y <;> simp [fromParts, Action.name, Action.IsInsert, Action.args, optText, need, opt, numArg, h]
  | scale x y => cases y <;> simp [fromParts, Action.name, Action.IsInsert, Action.args, optText, need, opt, numArg, h]
  | rotate x o =>
    cases o <;> simp [fromParts, Action.name, Action.IsInsert, Action.args, originText, need, opt, numArg, h, origin]
  | _ => simp [fromParts, Action.name, Action.IsInsert, Action.args, need, numArg, h]

/-- **C29 (`Insert`).** A stored `Insert` is refused, whatever the element inserted. -/
theorem insert_violated (read : String → Option N) (sh : N → String) (name : String) :
    fromState read (embed sh (.insert name)) = .error (.action "Insert") := by
  rw [fromState_embed]
  simp [fromParts, Action.name]

/-- **C29 (a history).** A recorded history is read back as a whole, in the order of recording, if and only if
it has no `Insert`. -/
theorem history_iff {read : String → Option N} {sh : N → String} (h : ∀ n, read (sh n) = some n)
    (l : List (Action N)) : readAll read (l.map (embed sh)) = .ok l ↔ ∀ a ∈ l, ¬ a.IsInsert := by
  induction l with
  | nil => simp [readAll]
  | cons a l ih =>
    by_cases ha : a.IsInsert
    · obtain ⟨name, rfl⟩ := ha
      simp [readAll, insert_violated, Action.IsInsert]
    · rw [List.forall_mem_cons, ← ih]
      simp only [List.map_cons, readAll, (readBack_iff h a).2 ha]
      cases hr : readAll read (l.map (embed sh)) <;> simp [ha]

/-- **C29 (a history with an `Insert`).** Nothing of a history with an `Insert` is read: what results is the
error about the `Insert`. -/
theorem history_violated {read : String → Option N} {sh : N → String} (h : ∀ n, read (sh n) = some n)
    (l : List (Action N)) {a : Action N} (ha : a ∈ l) (hi : a.IsInsert) :
    readAll read (l.map (embed sh)) = .error (.action "Insert") := by
  induction l with
  | nil => simp at ha
  | cons b l ih =>
    by_cases hb : b.IsInsert
    · obtain ⟨name, rfl⟩ := hb
      simp [readAll, insert_violated]
    · have : a ∈ l := by
        rcases List.mem_cons.1 ha with rfl | h'
        · exact absurd hi hb
        · exact h'
      simp only [List.map_cons, readAll, (readBack_iff h b).2 hb, ih this]

/-! ## Reading in general -/

/-- The texts of the arguments stored in an element, as far as they are arguments. -/
def texts (e : Xml) : List (Except Err String) := (childrenOf e).map argOf

theorem need_ok {args : List (Except Err α)} {k : α → List (Except Err α) → Except Err β} {b : β}
    (h : need args k = .ok b) : ∃ a rest, args = .ok a :: rest ∧ k a rest = .ok b := by
  cases args with
  | nil => simp [need] at h
  | cons x rest => cases x with
    | error e => simp [need] at h
    | ok a => exact ⟨a, rest, rfl, h⟩

theorem opt_ok {args : List (Except Err α)} {k : Option α → List (Except Err α) → Except Err β} {b : β}
    (h : opt args k = .ok b) :
    (args = [] ∧ k none [] = .ok b) ∨ ∃ a rest, args = .ok a :: rest ∧ k (some a) rest = .ok b := by
  cases args with
  | nil => exact .inl ⟨rfl, h⟩
  | cons x rest => cases x with
    | error e => simp [opt] at h
    | ok a => exact .inr ⟨a, rest, rfl, h⟩

/-- The stored texts are arguments of the action: the numbers may be spelled in any way, and further
arguments may follow. -/
inductive Stored (read : String → Option N) : Action N → List String → Prop
  | attr {a b} : Stored read (.attr a b) [a, b]
  | cls {a} : Stored read (.cls a) [a]
  | pathIntersect : Stored read .pathIntersect []
  | pathUnion : Stored read .pathUnion []
  | pathSubtract : Stored read .pathSubtract []
  | pathXor : Stored read .pathXor []
  | style {a b} : Stored read (.style a b) [a, b]
  | matrix {a b c d e f ta tb tc td te tf} : read ta = some a → read tb = some b → read tc = some c →
      read td = some d → read te = some e → read tf = some f →
      Stored read (.matrix a b c d e f) [ta, tb, tc, td, te, tf]
  | translate1 {x tx} : read tx = some x → Stored read (.translate x none) [tx]
  | translate2 {x y tx ty} : read tx = some x → read ty = some y → Stored read (.translate x (some y)) [tx, ty]
  | scale1 {x tx} : read tx = some x → Stored read (.scale x none) [tx]
  | scale2 {x y tx ty} : read tx = some x → read ty = some y → Stored read (.scale x (some y)) [tx, ty]
  | rotate1 {a ta} : read ta = some a → Stored read (.rotate a none) [ta]
  | rotate3 {a x y ta tx ty} : read ta = some a → read tx = some x → read ty = some y →
      Stored read (.rotate a (some (x, y))) [ta, tx, ty]
  | skewX {a ta} : read ta = some a → Stored read (.skewX a) [ta]
  | skewY {a ta} : read ta = some a → Stored read (.skewY a) [ta]
  | insert {a} : Stored read (.insert a) [a]
  | forget : Stored read .forget []
  | select {a} : Stored read (.select a) [a]
  | selectMore {a} : Stored read (.selectMore a) [a]
  | deselect : Stored read .deselect []

theorem numArg_ok {read : String → Option N} {x : Except Err String} {n : N} (h : numArg read x = .ok n) :
    ∃ t, x = .ok t ∧ read t = some n := by
  cases x with
  | error e => simp [numArg] at h
  | ok t =>
    refine ⟨t, rfl, ?_⟩
    cases hr : read t with
    | none => simp [numArg, hr] at h
    | some m => simp [numArg, hr] at h; rw [h]

theorem map_num_cons {read : String → Option N} {args : List (Except Err String)} {n : N} {rest : List (Except Err N)}
    (h : args.map (numArg read) = .ok n :: rest) :
    ∃ t args', args = .ok t :: args' ∧ read t = some n ∧ rest = args'.map (numArg read) := by
  cases args with
  | nil => simp at h
  | cons x args =>
    simp only [List.map_cons, List.cons.injEq] at h
    obtain ⟨t, rfl, ht⟩ := numArg_ok h.1
    exact ⟨t, args, rfl, ht, h.2.symm⟩

theorem needNum_ok {read : String → Option N} {args : List (Except Err String)}
    {k : N → List (Except Err N) → Except Err β} {b : β} (h : need (args.map (numArg read)) k = .ok b) :
    ∃ n t args', args = .ok t :: args' ∧ read t = some n ∧ k n (args'.map (numArg read)) = .ok b := by
  obtain ⟨n, rest, h1, h2⟩ := need_ok h
  obtain ⟨t, args', rfl, ht, rfl⟩ := map_num_cons h1
  exact ⟨n, t, args', rfl, ht, h2⟩

theorem optNum_ok {read : String → Option N} {args : List (Except Err String)}
    {k : Option N → List (Except Err N) → Except Err β} {b : β} (h : opt (args.map (numArg read)) k = .ok b) :
    (args = [] ∧ k none [] = .ok b) ∨
    ∃ n t args', args = .ok t :: args' ∧ read t = some n ∧ k (some n) (args'.map (numArg read)) = .ok b := by
  rcases opt_ok h with ⟨h1, h2⟩ | ⟨n, rest, h1, h2⟩
  · exact .inl ⟨by simpa using h1, h2⟩
  · obtain ⟨t, args', rfl, ht, rfl⟩ := map_num_cons h1
    exact .inr ⟨n, t, args', rfl, ht, h2⟩

theorem fromParts_sound {read : String → Option N} {id : String} {args : List (Except Err String)} {a : Action N}
    (h : fromParts read id args = .ok a) :
    id = a.name ∧ ∃ l rest, args = l.map Except.ok ++ rest ∧ Stored read a l := by
  unfold fromParts at h
  by_cases hi : id = "Attr"
  · rw [if_pos hi] at h
    obtain ⟨x, r, e, h'⟩ := need_ok h
    clear h; subst e; have h := h'; clear h'
    obtain ⟨y, r, e, h'⟩ := need_ok h
    clear h; subst e; have h := h'; clear h'
    cases h
    exact ⟨hi, [x, y], r, rfl, .attr⟩
  rw [if_neg hi] at h
  by_cases hi : id = "Class"
  · rw [if_pos hi] at h
    obtain ⟨x, r, e, h'⟩ := need_ok h
    clear h; subst e; have h := h'; clear h'
    cases h
    exact ⟨hi, [x], r, rfl, .cls⟩
  rw [if_neg hi] at h
  by_cases hi : id = "PathIntersect"
  · rw [if_pos hi] at h
    cases h; exact ⟨hi, [], args, rfl, .pathIntersect⟩
  rw [if_neg hi] at h
  by_cases hi : id = "PathUnion"
  · rw [if_pos hi] at h
    cases h; exact ⟨hi, [], args, rfl, .pathUnion⟩
  rw [if_neg hi] at h
  by_cases hi : id = "PathSubtract"
  · rw [if_pos hi] at h
    cases h; exact ⟨hi, [], args, rfl, .pathSubtract⟩
  rw [if_neg hi] at h
  by_cases hi : id = "PathXor"
  · rw [if_pos hi] at h
    cases h; exact ⟨hi, [], args, rfl, .pathXor⟩
  rw [if_neg hi] at h
  by_cases hi : id = "Style"
  · rw [if_pos hi] at h
    obtain ⟨x, r, e, h'⟩ := need_ok h
    clear h; subst e; have h := h'; clear h'
    obtain ⟨y, r, e, h'⟩ := need_ok h
    clear h; subst e; have h := h'; clear h'
    cases h
    exact ⟨hi, [x, y], r, rfl, .style⟩
  rw [if_neg hi] at h
  by_cases hi : id = "Matrix"
  · rw [if_pos hi] at h
    obtain ⟨a1, t1, r, e, h1, h'⟩ := needNum_ok h
    clear h; subst e; have h := h'; clear h'
    obtain ⟨a2, t2, r, e, h2, h'⟩ := needNum_ok h
    clear h; subst e; have h := h'; clear h'
    obtain ⟨a3, t3, r, e, h3, h'⟩ := needNum_ok h
    clear h; subst e; have h := h'; clear h'
    obtain ⟨a4, t4, r, e, h4, h'⟩ := needNum_ok h
    clear h; subst e; have h := h'; clear h'
    obtain ⟨a5, t5, r, e, h5, h'⟩ := needNum_ok h
    clear h; subst e; have h := h'; clear h'
    obtain ⟨a6, t6, r, e, h6, h'⟩ := needNum_ok h
    clear h; subst e; have h := h'; clear h'
    cases h
    exact ⟨hi, [t1, t2, t3, t4, t5, t6], r, rfl, .matrix h1 h2 h3 h4 h5 h6⟩
  rw [if_neg hi] at h
  by_cases hi : id = "Translate"
  · rw [if_pos hi] at h
    obtain ⟨a1, t1, r, e, h1, h'⟩ := needNum_ok h
    clear h; subst e; have h := h'; clear h'
    rcases optNum_ok h with ⟨rfl, h⟩ | ⟨a2, t2, r, rfl, h2, h⟩
    · cases h
      exact ⟨hi, [t1], [], rfl, .translate1 h1⟩
    · cases h
      exact ⟨hi, [t1, t2], r, rfl, .translate2 h1 h2⟩
  rw [if_neg hi] at h
  by_cases hi : id = "Scale"
  · rw [if_pos hi] at h
    obtain ⟨a1, t1, r, e, h1, h'⟩ := needNum_ok h
    clear h; subst e; have h := h'; clear h'
    rcases optNum_ok h with ⟨rfl, h⟩ | ⟨a2, t2, r, rfl, h2, h⟩
    · cases h
      exact ⟨hi, [t1], [], rfl, .scale1 h1⟩
    · cases h
      exact ⟨hi, [t1, t2], r, rfl, .scale2 h1 h2⟩
  rw [if_neg hi] at h
  by_cases hi : id = "Rotate"
  · rw [if_pos hi] at h
    obtain ⟨a1, t1, r, e, h1, h'⟩ := needNum_ok h
    clear h; subst e; have h := h'; clear h'
    rcases optNum_ok h with ⟨rfl, h⟩ | ⟨a2, t2, r, rfl, h2, h⟩
    · have h : Except.ok (Action.rotate a1 none) = Except.ok a := h
      cases h
      exact ⟨hi, [t1], [], rfl, .rotate1 h1⟩
    · rcases optNum_ok h with ⟨rfl, h'⟩ | ⟨a3, t3, r, rfl, h3, h⟩
      · simp [origin] at h'
      · have h : Except.ok (Action.rotate a1 (some (a2, a3))) = Except.ok a := h
        cases h
        exact ⟨hi, [t1, t2, t3], r, rfl, .rotate3 h1 h2 h3⟩
  rw [if_neg hi] at h
  by_cases hi : id = "SkewX"
  · rw [if_pos hi] at h
    obtain ⟨a1, t1, r, e, h1, h'⟩ := needNum_ok h
    clear h; subst e; have h := h'; clear h'
    cases h
    exact ⟨hi, [t1], r, rfl, .skewX h1⟩
  rw [if_neg hi] at h
  by_cases hi : id = "SkewY"
  · rw [if_pos hi] at h
    obtain ⟨a1, t1, r, e, h1, h'⟩ := needNum_ok h
    clear h; subst e; have h := h'; clear h'
    cases h
    exact ⟨hi, [t1], r, rfl, .skewY h1⟩
  rw [if_neg hi] at h
  by_cases hi : id = "Forget"
  · rw [if_pos hi] at h
    cases h; exact ⟨hi, [], args, rfl, .forget⟩
  rw [if_neg hi] at h
  by_cases hi : id = "Select"
  · rw [if_pos hi] at h
    obtain ⟨x, r, e, h'⟩ := need_ok h
    clear h; subst e; have h := h'; clear h'
    cases h
    exact ⟨hi, [x], r, rfl, .select⟩
  rw [if_neg hi] at h
  by_cases hi : id = "SelectMore"
  · rw [if_pos hi] at h
    obtain ⟨x, r, e, h'⟩ := need_ok h
    clear h; subst e; have h := h'; clear h'
    cases h
    exact ⟨hi, [x], r, rfl, .selectMore⟩
  rw [if_neg hi] at h
  by_cases hi : id = "Deselect"
  · rw [if_pos hi] at h
    cases h; exact ⟨hi, [], args, rfl, .deselect⟩
  rw [if_neg hi] at h
  cases h

/-- Specification: the text in a list of nodes, in the order of the document. -/
inductive Text : List Xml → String → Prop
  | nil : Text [] ""
  | text {v l t} : Text l t → Text (.text v :: l) (v ++ t)
  | elem {o n attrs kids l s t} : Text kids s → Text l t → Text (.elem o n attrs kids :: l) (s ++ t)

mutual
theorem text_one : ∀ (x : Xml) {l : List Xml} {t : String}, Text l t → Text (x :: l) (textContent x ++ t)
  | .text _, _, _, h => .text h
  | .elem _ _ _ kids, _, _, h => .elem (text_spec kids) h

/-- `text_content` is the text of the nodes in the order of the document. -/
theorem text_spec : ∀ l : List Xml, Text l (textContents l)
  | [] => .nil
  | x :: l => text_one x (text_spec l)
end

/-- Specification: an element `oxvg:arg` with that text. -/
def IsArg (e : Xml) (t : String) : Prop := ∃ attrs kids, e = .elem true "arg" attrs kids ∧ Text kids t

theorem argOf_ok {e : Xml} {t : String} (h : argOf e = .ok t) : IsArg e t := by
  cases e with
  | text v => simp [argOf, assertElement] at h
  | elem o n attrs kids =>
    cases o with
    | false => simp [argOf, assertElement] at h
    | true =>
      by_cases hn : n = "arg"
      · subst hn
        simp only [argOf, assertElement, textContent, Bool.true_eq_false, if_false, if_true, Except.ok.injEq] at h
        subst h
        exact ⟨attrs, kids, rfl, text_spec kids⟩
      · simp [argOf, assertElement, hn] at h

theorem args_ok : ∀ (es : List Xml) {l : List String} {rest : List (Except Err String)},
    es.map argOf = l.map Except.ok ++ rest → ∃ parts more, es = parts ++ more ∧ parts.length = l.length ∧
      ∀ (i : Nat) (e : Xml) (t : String), parts[i]? = some e → l[i]? = some t → IsArg e t
  | es, [], _, _ => ⟨[], es, rfl, rfl, by simp⟩
  | [], t :: l, _, h => by simp at h
  | e :: es, t :: l, rest, h => by
    simp only [List.map_cons, List.cons_append, List.cons.injEq] at h
    obtain ⟨parts, more, rfl, h2, h3⟩ := args_ok es h.2
    refine ⟨e :: parts, more, rfl, by simp [h2], ?_⟩
    intro i e' t' he ht
    cases i with
    | zero =>
      simp only [List.getElem?_cons_zero, Option.some.injEq] at he ht
      subst he; subst ht; exact argOf_ok h.1
    | succ i => exact h3 i e' t' he ht

/-- **C29 (reading).** Whatever element is read as an action is an `oxvg:action` whose `oxvg:id` is the name of
that action and whose first child elements are `oxvg:arg` elements with the texts of that action's arguments, in
their order. -/
theorem fromState_sound {read : String → Option N} {e : Xml} {a : Action N} (h : fromState read e = .ok a) :
    ∃ attrs kids l parts more, e = .elem true "action" attrs kids ∧ attrs.lookup "id" = some a.name ∧
      kids.filter isElem = parts ++ more ∧ parts.length = l.length ∧
      (∀ (i : Nat) (p : Xml) (t : String), parts[i]? = some p → l[i]? = some t → IsArg p t) ∧ Stored read a l := by
  cases e with
  | text v => simp [fromState, assertElement] at h
  | elem o n attrs kids =>
    simp only [fromState, assertElement, oxvgAttr, childrenOf] at h
    cases o with
    | false => simp at h
    | true =>
      by_cases hn : n = "action"
      · subst hn
        simp only [Bool.true_eq_false, if_false, if_true] at h
        cases hid : attrs.lookup "id" with
        | none => rw [hid] at h; cases h
        | some id =>
          rw [hid] at h
          obtain ⟨rfl, l, rest, h1, h2⟩ := fromParts_sound h
          obtain ⟨parts, more, h3, h4, h5⟩ := args_ok _ h1
          exact ⟨attrs, kids, l, parts, more, rfl, hid, h3, h4, h5, h2⟩
      · simp [hn] at h

/-! ## The command line -/

/-- Specification: the arguments spell the action: the command first, its arguments behind it. Numbers may be
spelled in any way. -/
inductive Spells (read : String → Option N) : Action N → List String → Prop
  | attr {a b} : Spells read (.attr a b) ["-attr", a, b]
  | cls {a} : Spells read (.cls a) ["-class", a]
  | pathIntersect : Spells read .pathIntersect ["-path-intersect"]
  | pathUnion : Spells read .pathUnion ["-path-union"]
  | pathSubtract : Spells read .pathSubtract ["-path-subtract"]
  | pathXor : Spells read .pathXor ["-path-xor"]
  | style {a b} : Spells read (.style a b) ["-style", a, b]
  | matrix {a b c d e f ta tb tc td te tf} : read ta = some a → read tb = some b → read tc = some c →
      read td = some d → read te = some e → read tf = some f →
      Spells read (.matrix a b c d e f) ["-matrix", ta, tb, tc, td, te, tf]
  | translate1 {x tx} : read tx = some x → Spells read (.translate x none) ["-translate", tx]
  | translate2 {x y tx ty} : read tx = some x → read ty = some y →
      Spells read (.translate x (some y)) ["-translate", tx, ty]
  | scale1 {x tx} : read tx = some x → Spells read (.scale x none) ["-scale", tx]
  | scale2 {x y tx ty} : read tx = some x → read ty = some y → Spells read (.scale x (some y)) ["-scale", tx, ty]
  | rotate1 {a ta} : read ta = some a → Spells read (.rotate a none) ["-rotate", ta]
  | rotate3 {a x y ta tx ty} : read ta = some a → read tx = some x → read ty = some y →
      Spells read (.rotate a (some (x, y))) ["-rotate", ta, tx, ty]
  | skewX {a ta} : read ta = some a → Spells read (.skewX a) ["-skewX", ta]
  | skewY {a ta} : read ta = some a → Spells read (.skewY a) ["-skewY", ta]
  | insert {a} : Spells read (.insert a) ["-insert", a]
  | create {a} : Spells read (.insert a) ["-create-element", a]
  | forget : Spells read .forget ["-forget"]
  | select {a} : Spells read (.select a) ["-select", a]
  | selectMore {a} : Spells read (.selectMore a) ["-select-more", a]
  | deselect : Spells read .deselect ["-deselect"]

/-- The names of the commands. -/
def commandNames : List String :=
  ["-attr", "-class", "-path-intersect", "-path-union", "-path-subtract", "-path-xor", "-style", "-matrix",
   "-translate", "-scale", "-rotate", "-skewX", "-skewY", "-insert", "-create-element", "-forget", "-select",
   "-select-more", "-deselect"]

/-- Specification: the arguments spell the actions one after the other. -/
inductive SpellsAll (read : String → Option N) : List (Action N) → List String → Prop
  | nil : SpellsAll read [] []
  | cons {a as l ls} : Spells read a l → SpellsAll read as ls → SpellsAll read (a :: as) (l ++ ls)

theorem getPart_ok {cmd : String} {parts : List String} {k : String → List String → Except CmdErr β} {b : β}
    (h : getPart cmd parts k = .ok b) : ∃ p rest, parts = p :: rest ∧ k p rest = .ok b := by
  cases parts with
  | nil => simp [getPart] at h
  | cons p rest => exact ⟨p, rest, rfl, h⟩

theorem getNum_ok {read : String → Option N} {cmd : String} {parts : List String}
    {k : N → List String → Except CmdErr β} {b : β} (h : getNum read cmd parts k = .ok b) :
    ∃ p n rest, parts = p :: rest ∧ read p = some n ∧ k n rest = .ok b := by
  obtain ⟨p, rest, rfl, h'⟩ := getPart_ok h
  cases hr : read p with
  | none => rw [hr] at h'; cases h'
  | some n => rw [hr] at h'; exact ⟨p, n, rest, rfl, hr, h'⟩

theorem peekNum_cases (read : String → Option N) (parts : List String) :
    (peekNum read parts = (none, parts) ∧ ∀ p rest, parts = p :: rest → read p = none) ∨
    ∃ p n rest, parts = p :: rest ∧ read p = some n ∧ peekNum read parts = (some n, rest) := by
  cases parts with
  | nil => exact .inl ⟨rfl, by simp⟩
  | cons p rest => cases hr : read p with
    | none =>
      refine .inl ⟨by simp [peekNum, hr], ?_⟩
      intro p' rest' h
      cases h
      exact hr
    | some n => exact .inr ⟨p, n, rest, rfl, hr, by simp [peekNum, hr]⟩

theorem parseOne_sound {read : String → Option N} {cmd : String} {parts rest : List String} {a : Action N}
    (h : parseOne read cmd parts = .ok (a, rest)) : ∃ l, cmd :: parts = l ++ rest ∧ Spells read a l := by
  unfold parseOne at h
  by_cases hd : cmd.toList.head? ≠ some '-'
  · rw [if_pos hd] at h; cases h
  rw [if_neg hd] at h
  by_cases hi : cmd = "-attr"
  · rw [if_pos hi] at h
    obtain ⟨x, r, e, h'⟩ := getPart_ok h
    clear h; subst e; have h := h'; clear h'
    obtain ⟨y, r, e, h'⟩ := getPart_ok h
    clear h; subst e; have h := h'; clear h'
    cases h; subst hi
    exact ⟨_, rfl, .attr⟩
  rw [if_neg hi] at h
  by_cases hi : cmd = "-class"
  · rw [if_pos hi] at h
    obtain ⟨x, r, e, h'⟩ := getPart_ok h
    clear h; subst e; have h := h'; clear h'
    cases h; subst hi
    exact ⟨_, rfl, .cls⟩
  rw [if_neg hi] at h
  by_cases hi : cmd = "-path-intersect"
  · rw [if_pos hi] at h
    cases h; subst hi; exact ⟨_, rfl, .pathIntersect⟩
  rw [if_neg hi] at h
  by_cases hi : cmd = "-path-union"
  · rw [if_pos hi] at h
    cases h; subst hi; exact ⟨_, rfl, .pathUnion⟩
  rw [if_neg hi] at h
  by_cases hi : cmd = "-path-subtract"
  · rw [if_pos hi] at h
    cases h; subst hi; exact ⟨_, rfl, .pathSubtract⟩
  rw [if_neg hi] at h
  by_cases hi : cmd = "-path-xor"
  · rw [if_pos hi] at h
    cases h; subst hi; exact ⟨_, rfl, .pathXor⟩
  rw [if_neg hi] at h
  by_cases hi : cmd = "-style"
  · rw [if_pos hi] at h
    obtain ⟨x, r, e, h'⟩ := getPart_ok h
    clear h; subst e; have h := h'; clear h'
    obtain ⟨y, r, e, h'⟩ := getPart_ok h
    clear h; subst e; have h := h'; clear h'
    cases h; subst hi
    exact ⟨_, rfl, .style⟩
  rw [if_neg hi] at h
  by_cases hi : cmd = "-matrix"
  · rw [if_pos hi] at h
    obtain ⟨t1, a1, r, e, h1, h'⟩ := getNum_ok h
    clear h; subst e; have h := h'; clear h'
    obtain ⟨t2, a2, r, e, h2, h'⟩ := getNum_ok h
    clear h; subst e; have h := h'; clear h'
    obtain ⟨t3, a3, r, e, h3, h'⟩ := getNum_ok h
    clear h; subst e; have h := h'; clear h'
    obtain ⟨t4, a4, r, e, h4, h'⟩ := getNum_ok h
    clear h; subst e; have h := h'; clear h'
    obtain ⟨t5, a5, r, e, h5, h'⟩ := getNum_ok h
    clear h; subst e; have h := h'; clear h'
    obtain ⟨t6, a6, r, e, h6, h'⟩ := getNum_ok h
    clear h; subst e; have h := h'; clear h'
    cases h; subst hi
    exact ⟨_, rfl, .matrix h1 h2 h3 h4 h5 h6⟩
  rw [if_neg hi] at h
  by_cases hi : cmd = "-translate"
  · rw [if_pos hi] at h
    obtain ⟨t1, a1, r, e, h1, h'⟩ := getNum_ok h
    clear h; subst e; have h := h'; clear h'
    rcases peekNum_cases read r with ⟨hp, _⟩ | ⟨t2, a2, r, rfl, h2, hp⟩ <;> rw [hp] at h <;> cases h <;> subst hi
    · exact ⟨_, rfl, .translate1 h1⟩
    · exact ⟨_, rfl, .translate2 h1 h2⟩
  rw [if_neg hi] at h
  by_cases hi : cmd = "-scale"
  · rw [if_pos hi] at h
    obtain ⟨t1, a1, r, e, h1, h'⟩ := getNum_ok h
    clear h; subst e; have h := h'; clear h'
    rcases peekNum_cases read r with ⟨hp, _⟩ | ⟨t2, a2, r, rfl, h2, hp⟩ <;> rw [hp] at h <;> cases h <;> subst hi
    · exact ⟨_, rfl, .scale1 h1⟩
    · exact ⟨_, rfl, .scale2 h1 h2⟩
  rw [if_neg hi] at h
  by_cases hi : cmd = "-rotate"
  · rw [if_pos hi] at h
    obtain ⟨t1, a1, r, e, h1, h'⟩ := getNum_ok h
    clear h; subst e; have h := h'; clear h'
    rcases peekNum_cases read r with ⟨hp, _⟩ | ⟨t2, a2, r, rfl, h2, hp⟩ <;> rw [hp] at h
    · cases h; subst hi
      exact ⟨_, rfl, .rotate1 h1⟩
    · obtain ⟨t3, a3, r, e, h3, h'⟩ := getNum_ok h
      clear h; subst e; have h := h'; clear h'
      cases h; subst hi
      exact ⟨_, rfl, .rotate3 h1 h2 h3⟩
  rw [if_neg hi] at h
  by_cases hi : cmd = "-skewX"
  · rw [if_pos hi] at h
    obtain ⟨t1, a1, r, e, h1, h'⟩ := getNum_ok h
    clear h; subst e; have h := h'; clear h'
    cases h; subst hi
    exact ⟨_, rfl, .skewX h1⟩
  rw [if_neg hi] at h
  by_cases hi : cmd = "-skewY"
  · rw [if_pos hi] at h
    obtain ⟨t1, a1, r, e, h1, h'⟩ := getNum_ok h
    clear h; subst e; have h := h'; clear h'
    cases h; subst hi
    exact ⟨_, rfl, .skewY h1⟩
  rw [if_neg hi] at h
  by_cases hi : cmd = "-forget"
  · rw [if_pos hi] at h
    cases h; subst hi; exact ⟨_, rfl, .forget⟩
  rw [if_neg hi] at h
  by_cases hi : cmd = "-insert" ∨ cmd = "-create-element"
  · rw [if_pos hi] at h
    obtain ⟨x, r, e, h'⟩ := getPart_ok h
    clear h; subst e; have h := h'; clear h'
    cases h
    rcases hi with rfl | rfl
    · exact ⟨_, rfl, .insert⟩
    · exact ⟨_, rfl, .create⟩
  rw [if_neg hi] at h
  by_cases hi : cmd = "-select"
  · rw [if_pos hi] at h
    obtain ⟨x, r, e, h'⟩ := getPart_ok h
    clear h; subst e; have h := h'; clear h'
    cases h; subst hi
    exact ⟨_, rfl, .select⟩
  rw [if_neg hi] at h
  by_cases hi : cmd = "-select-more"
  · rw [if_pos hi] at h
    obtain ⟨x, r, e, h'⟩ := getPart_ok h
    clear h; subst e; have h := h'; clear h'
    cases h; subst hi
    exact ⟨_, rfl, .selectMore⟩
  rw [if_neg hi] at h
  by_cases hi : cmd = "-deselect"
  · rw [if_pos hi] at h
    cases h; subst hi; exact ⟨_, rfl, .deselect⟩
  rw [if_neg hi] at h
  cases h

/-- The next argument, if there is one, is not a number. -/
def NoNumber (read : String → Option N) (l : List String) : Prop := ∀ p rest, l = p :: rest → read p = none

theorem peek_none {read : String → Option N} {l : List String} (h : NoNumber read l) : peekNum read l = (none, l) := by
  cases l with
  | nil => rfl
  | cons p rest => simp [peekNum, h p rest rfl]

theorem peek_some {read : String → Option N} {p : String} {n : N} {l : List String} (h : read p = some n) :
    peekNum read (p :: l) = (some n, l) := by
  simp [peekNum, h]

theorem parseOne_complete {read : String → Option N} {a : Action N} {l rest : List String} (h : Spells read a l)
    (hr : NoNumber read rest) :
    ∃ cmd parts, l = cmd :: parts ∧ cmd ∈ commandNames ∧ parseOne read cmd (parts ++ rest) = .ok (a, rest) := by
  cases h <;> refine ⟨_, _, rfl, by decide, ?_⟩ <;>
    simp [parseOne, getPart, getNum, peek_none hr, peek_some, rotateParts, *]

theorem spells_head {read : String → Option N} (hc : ∀ c ∈ commandNames, read c = none) {as : List (Action N)}
    {l : List String} (h : SpellsAll read as l) : NoNumber read l := by
  cases h with
  | nil => intro p rest h; cases h
  | cons h1 h2 =>
    obtain ⟨cmd, parts, rfl, hm, _⟩ := parseOne_complete (rest := []) h1 (by intro p rest h; cases h)
    intro p rest h
    cases h
    exact hc _ hm

theorem loop_sound {read : String → Option N} {n : Nat} {l : List String} {as : List (Action N)} (hn : l.length ≤ n)
    (h : parseLoop read n l = .ok as) : SpellsAll read as l := by
  induction n generalizing l as with
  | zero =>
    obtain rfl : l = [] := List.eq_nil_of_length_eq_zero (by omega)
    cases h
    exact .nil
  | succ n ih =>
    cases l with
    | nil => cases h; exact .nil
    | cons cmd parts =>
      rw [parseLoop] at h
      cases h1 : parseOne read cmd parts with
      | error e => rw [h1] at h; cases h
      | ok v =>
        obtain ⟨a, rest⟩ := v
        rw [h1] at h
        obtain ⟨l, hl, hs⟩ := parseOne_sound h1
        have hlen : rest.length ≤ n := by
          have := congrArg List.length hl
          have h0 : l ≠ [] := by rintro rfl; cases hs
          have : 0 < l.length := List.length_pos_iff.2 h0
          simp at *
          omega
        cases h2 : parseLoop read n rest with
        | error e => simp only [h2] at h; cases h
        | ok as' =>
          simp only [h2] at h
          cases h
          rw [hl]
          exact .cons hs (ih hlen h2)

theorem loop_complete {read : String → Option N} (hc : ∀ c ∈ commandNames, read c = none) {n : Nat} {l : List String}
    {as : List (Action N)} (hn : l.length ≤ n) (h : SpellsAll read as l) : parseLoop read n l = .ok as := by
  induction h generalizing n with
  | nil => cases n <;> rfl
  | @cons a as l ls h1 h2 ih =>
    obtain ⟨cmd, parts, rfl, hm, hp⟩ := parseOne_complete h1 (spells_head hc h2)
    cases n with
    | zero => simp at hn
    | succ n =>
      simp only [List.cons_append, parseLoop, hp]
      rw [ih (by simp at hn; omega)]

/-- **C38 (command lists).** A list of arguments is accepted and gives these actions if and only if it spells
these actions one after the other. (No command is itself a number.) -/
theorem parseCommands_iff {read : String → Option N} (hc : ∀ c ∈ commandNames, read c = none) (l : List String)
    (as : List (Action N)) : parseCommands read l = .ok as ↔ SpellsAll read as l :=
  ⟨loop_sound (Nat.le_refl _), loop_complete hc (Nat.le_refl _)⟩

/-! ## With the number parser of the code -/

/-- `f32::parse_string`; the value is represented by the text of the number. `finite` tells whether the number
that a text denotes is finite, as in `Verif.Number`. -/
def readF32 (finite : List Char → Bool) (s : String) : Option (List Char) :=
  match Verif.ListOf.parseString (Verif.Number.parseF64 finite) s.toList with
  | .ok t _ => some t
  | _ => none

theorem f64_mono {finite : List Char → Bool} {p q : Verif.Parse.Parser} {t : List Char}
    (h : Verif.Number.parseF64 finite p = .ok t q) : Verif.Number.parseF64 (fun _ => true) p = .ok t q := by
  simp only [Verif.Number.parseF64, Verif.Number.bind_ok] at h ⊢
  obtain ⟨a1, p1, h1, a2, p2, h2, a3, p3, h3, a4, p4, h4, a5, p5, h5, a6, p6, h6, a7, p7, h7, h8⟩ := h
  refine ⟨a1, p1, h1, a2, p2, h2, a3, p3, h3, a4, p4, h4, a5, p5, h5, a6, p6, h6, a7, p7, h7, ?_⟩
  by_cases hr : Verif.Number.rustFloat a7 = true <;> by_cases hf : finite a7 = true <;> simp [hr, hf] at h8 ⊢
  exact h8

theorem readF32_mono {finite : List Char → Bool} {s : String} (h : readF32 (fun _ => true) s = none) :
    readF32 finite s = none := by
  unfold readF32 at *
  cases h1 : Verif.ListOf.parseString (Verif.Number.parseF64 finite) s.toList with
  | ok t q =>
    have : Verif.ListOf.parseString (Verif.Number.parseF64 fun _ => true) s.toList = .ok t q := by
      simp only [Verif.ListOf.parseString, Verif.Number.bind_ok] at h1 ⊢
      obtain ⟨a1, p1, h1, a2, p2, h2, h3⟩ := h1
      exact ⟨a1, p1, h1, a2, p2, f64_mono h2, h3⟩
    rw [this] at h
    cases h
  | err q => rfl
  | panic => rfl

theorem command_not_number (finite : List Char → Bool) : ∀ c ∈ commandNames, readF32 finite c = none := by
  have : ∀ c ∈ commandNames, readF32 (fun _ => true) c = none := by decide +kernel
  exact fun c hc => readF32_mono (this c hc)

/-- **C38 (command lists, with the number parser of the code).** -/
theorem parseCommands_f32_iff (finite : List Char → Bool) (l : List String) (as : List (Action (List Char))) :
    parseCommands (readF32 finite) l = .ok as ↔ SpellsAll (readF32 finite) as l :=
  parseCommands_iff (command_not_number finite) l as

/-! ## Examples -/

example : fromState some (embed id (.rotate "90" (some ("1", "2")))) = .ok (.rotate "90" (some ("1", "2")) : Action String) :=
  (readBack_iff (fun _ => rfl) _).2 (by rintro ⟨_, h⟩; cases h)
example : fromState some (embed id (.insert "rect")) = .error (.action "Insert") := insert_violated _ _ _
example : readAll some ([Action.select "path", .attr "fill" "red"].map (embed id)) =
    .ok [Action.select "path", .attr "fill" "red"] := by
  rw [history_iff (sh := id) (fun _ => rfl)]
  intro a ha
  rintro ⟨n, rfl⟩
  simp at ha
example : readAll some ([Action.select "svg", .insert "rect", .attr "fill" "red"].map (embed id)) =
    (.error (.action "Insert") : Except Err (List (Action String))) :=
  history_violated (fun _ => rfl) _ (a := .insert "rect") (by simp) ⟨_, rfl⟩
example : parseCommands (readF32 fun _ => true) ["-translate", "1", "-rotate", "2", "-3", "4", "-select", "-class"] =
    .ok [.translate "1".toList none, .rotate "2".toList (some ("-3".toList, "4".toList)), .select "-class"] := by
  rw [parseCommands_f32_iff]
  exact .cons (l := ["-translate", "1"]) (.translate1 (by decide +kernel))
    (.cons (l := ["-rotate", "2", "-3", "4"])
      (.rotate3 (by decide +kernel) (by decide +kernel) (by decide +kernel)) (.cons (l := ["-select", "-class"]) .select .nil))
/-- Whether an argument was missing. -/
def isMissing : Except CmdErr β → Bool
  | .error (.missing _) => true
  | _ => false

example : isMissing (parseCommands (readF32 fun _ => true) ["-rotate", "1", "2"]) = true := by decide +kernel

end Verif.Actions
