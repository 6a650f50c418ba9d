import Verif.Actions.StateLemmas

/-!
# C39: the state of an actor is kept in the document
-/

namespace Verif.Actions

open Verif.ListOf (Sep write parseString parseList intText)

variable {d : Doc} {st : State} {ops : List Op}

/-- A document refused: exactly those with something else than a history or a selection in the state. -/
theorem new_iff (d : Doc) : (new d).isSome = true ↔ d.Valid := by
  constructor
  · intro h f hf e
    subst e
    rw [new, debed_foreign _ _ _ hf] at h
    cases h
  · intro h
    obtain ⟨st, h1, _⟩ := new_inv h
    rw [h1]; rfl

theorem new_spec (h : new d = some st) : Inv st ∧ st.inDoc = false ∧ st.declared = d.declared ∧
    st.cells = d.fields.map fun f => ⟨f, true⟩ := by
  obtain ⟨st', h1, h2⟩ := new_inv ((new_iff d).1 (by rw [h]; rfl))
  rw [h] at h1
  cases h1
  exact h2

theorem filter_attached (fs : List Field) :
    ((fs.map fun f => (⟨f, true⟩ : Cell)).filter Cell.attached).map Cell.field = fs := by
  induction fs with
  | nil => rfl
  | cons f fs ih => simp [ih]

/-- **C39 (opening).** The actor of a document starts with the history and the selection of the document. -/
theorem opened (h : new d = some st) : st.recorded = d.history ∧ st.selected = d.selection := by
  obtain ⟨h1, _, _, h4⟩ := new_spec h
  have hf : st.fields = d.fields := by rw [State.fields, h4, filter_attached]
  refine ⟨by rw [h1.recorded, hf]; rfl, ?_⟩
  rw [h1.selected, hf]
  · rfl
  · intro c hc
    unfold State.selCell at hc
    cases hs : st.selection with
    | none => rw [hs] at hc; cases hc
    | some i =>
      rw [hs, Option.bind_some, h4] at hc
      exact (map_get hc).2

theorem fields_embed (st : State) : (embedState st).fields = st.fields := by
  unfold embedState
  split
  · rfl
  · split <;> rfl

theorem doc_fields (st : State) : st.doc.fields = if st.inDoc then st.fields else [] := by
  unfold State.doc Doc.fields State.fields
  cases st.inDoc <;> rfl

theorem embed_inDoc (st : State) :
    (embedState st).inDoc = true ∨ (st.history = none ∧ st.selection = none) := by
  unfold embedState
  cases h1 : st.history with
  | none =>
    cases h2 : st.selection with
    | none => simp
    | some j => simp; split <;> simp [*]
  | some i => simp; split <;> simp [*]

theorem snapshot_history (h : Inv st) : (snapshot st).history = st.recorded := by
  unfold Doc.history
  rw [snapshot, doc_fields, fields_embed]
  rcases embed_inDoc st with h1 | ⟨h1, _⟩
  · rw [h1, if_pos rfl, h.recorded]
  · have h0 : st.recorded = [] := by unfold State.recorded; rw [h1]; rfl
    rw [h0]
    split
    · rw [← h.recorded, h0]
    · rfl

/-- **C39 (history).** Whatever is done with an actor, the document saved at the end has the history of the
document opened, followed by all actions in the order in which they were done. -/
theorem history_kept (h : new d = some st) (ops : List Op) :
    (snapshot (run st ops)).history = d.history ++ ops.filterMap Op.rec? := by
  rw [snapshot_history ((new_spec h).1.run ops), recorded_run (new_spec h).1, (opened h).1]

theorem valid_fields (h : Inv st) : ∀ f ∈ st.fields, f ≠ .foreign := by
  intro f hf
  obtain ⟨c, hc, rfl⟩ := List.mem_map.1 hf
  obtain ⟨k, hk⟩ := List.mem_iff_getElem?.1 (List.mem_filter.1 hc).1
  exact h.valid k c hk

/-- The namespace is declared whenever the state is in the document. -/
def Declared (st : State) : Prop := st.inDoc = true → st.declared = true

theorem declared_embed (h : Declared st) : Declared (embedState st) := by
  unfold embedState
  split
  · exact h
  · split
    · exact h
    · intro _; rfl

theorem same_getSelections (st : State) :
    (getSelections st).inDoc = st.inDoc ∧ (getSelections st).declared = st.declared := by
  unfold getSelections
  cases st.selection <;> exact ⟨rfl, rfl⟩

theorem same_record (x : Xml) (st : State) :
    (record x st).inDoc = st.inDoc ∧ (record x st).declared = st.declared ∧ (record x st).selection = st.selection := by
  unfold record getHistory
  cases h : st.history <;> simp only [h, State.modify] <;> exact ⟨trivial, trivial, trivial⟩

theorem same_modify (f : Cell → Cell) (i : Option Nat) (st : State) :
    (st.modify f i).inDoc = st.inDoc ∧ (st.modify f i).declared = st.declared ∧
    (st.modify f i).selection = st.selection ∧ (st.modify f i).history = st.history := by
  cases i <;> exact ⟨rfl, rfl, rfl, rfl⟩

theorem declared_effect (h : Declared st) (l : List Int) : Declared (effectSelection l st) := by
  have h0 : Declared (getSelections st) := by
    intro hi
    rw [(same_getSelections st).1] at hi
    rw [(same_getSelections st).2]
    exact h hi
  have h1 : ∀ f i, Declared ((getSelections st).modify f i) := by
    intro f i hi
    rw [(same_modify f i _).1] at hi
    rw [(same_modify f i _).2.1]
    exact h0 hi
  unfold effectSelection
  simp only
  split
  · exact h1 _ _
  · exact declared_embed (h1 _ _)

theorem declared_found (h : Declared st) (f : Option (List Int)) : Declared (setFound st f) := by
  cases f with
  | none => exact h
  | some l => exact declared_effect h l

theorem declared_step (h : Declared st) (op : Op) : Declared (step st op) := by
  have hr : ∀ x, Declared (record x st) := by
    intro x hi
    rw [(same_record x st).1] at hi
    rw [(same_record x st).2.1]
    exact h hi
  have hg : ∀ {s}, Declared s → Declared (getSelections s) := by
    intro s hs hi
    rw [(same_getSelections s).1] at hi
    rw [(same_getSelections s).2]
    exact hs hi
  cases op with
  | select r f => exact declared_found (hr r) f
  | selectMore r f =>
    simp only [step]
    cases (getSelections (record r st)).selected with
    | none => exact hg (hr r)
    | some old => exact declared_found (hg (hr r)) _
  | deselect r => exact declared_effect (hr r) []
  | forget r => intro hi; cases hi
  | edit r sels =>
    simp only [step]
    have : ∀ (s : State), Declared s → Declared (sels.foldl (fun st l => effectSelection l st) s) := by
      induction sels with
      | nil => exact fun s h => h
      | cons l sels ih => exact fun s h => ih _ (declared_effect h l)
    exact this _ (hg (hr r))
  | snapshot => exact declared_embed h

theorem declared_run (h : Declared st) (ops : List Op) : Declared (run st ops) := by
  induction ops generalizing st with
  | nil => exact h
  | cons op ops ih => exact ih (declared_step h op)

/-- **C39 (saved documents).** The document saved can be opened again, and it declares the namespace of the
state if it has one. -/
theorem saved_valid (h : new d = some st) (ops : List Op) :
    (snapshot (run st ops)).Valid ∧ ((snapshot (run st ops)).state.isSome = true → (snapshot (run st ops)).declared = true) := by
  have hi := (new_spec h).1.run ops
  constructor
  · intro f hf
    rw [snapshot, doc_fields, fields_embed] at hf
    split at hf
    · exact valid_fields hi f hf
    · cases hf
  · intro hs
    have hd : Declared (embedState (run st ops)) :=
      declared_embed (declared_run (fun hi => by rw [(new_spec h).2.1] at hi; cases hi) ops)
    apply hd
    unfold snapshot State.doc at hs
    simp only at hs
    split at hs
    · next hx => exact hx
    · cases hs

/-! ## The selection -/

theorem selCell_get {i : Nat} (h : st.selection = some i) : st.selCell = st.cells[i]? := by
  unfold State.selCell; rw [h]; rfl

theorem selected_embed (st : State) : (embedState st).selCell = st.selCell := by
  unfold embedState
  split
  · rfl
  · split <;> rfl

/-- The selection element behind `get_selections`. -/
theorem selCell_getSelections (h : Inv st) :
    ∃ v b, (getSelections st).selCell = some ⟨.selection v, b⟩ ∧ (v = st.selCell.bind Cell.ids) ∧
      (b = true ↔ st.SelAttached) := by
  unfold getSelections
  cases hs : st.selection with
  | some i =>
    obtain ⟨v, b, hv⟩ := h.selSome i hs
    have hc : st.selCell = some ⟨.selection v, b⟩ := by rw [selCell_get hs, hv]
    refine ⟨v, b, hc, by rw [hc]; rfl, ?_⟩
    unfold State.SelAttached
    rw [hc]
    constructor
    · intro hb c e; cases e; exact hb
    · intro hb; exact hb _ rfl
  | none =>
    have hc : st.selCell = none := by unfold State.selCell; rw [hs]; rfl
    refine ⟨none, true, ?_, by rw [hc]; rfl, ?_⟩
    · unfold State.selCell; simp
    · unfold State.SelAttached; rw [hc]; simp

theorem selCell_modify (h : Inv st) {i : Nat} (hi : st.selection = some i) (f : Cell → Cell) :
    (st.modify f (some i)).selCell = st.selCell.map f := by
  obtain ⟨v, b, hv⟩ := h.selSome i hi
  rw [selCell_get hi, selCell_get (show (st.modify f (some i)).selection = some i from hi), hv]
  exact modify_same hv

/-- The selection element after the selection was set. -/
theorem selCell_effect (h : Inv st) (l : List Int) :
    ∃ b, (effectSelection l st).selCell = some ⟨.selection (if l = [] then none else some (write intText .spaceOrComma l)), b⟩ ∧
      (b = true ↔ st.SelAttached ∧ l ≠ []) := by
  obtain ⟨i, hi⟩ := getSelections_some st
  obtain ⟨v, b, hc, _, hb⟩ := selCell_getSelections h
  unfold effectSelection
  simp only [hi]
  by_cases hl : l = []
  · subst hl
    refine ⟨false, ?_, by simp⟩
    rw [if_pos (by rfl), selCell_modify h.getSelections hi, hc]
    rfl
  · refine ⟨b, ?_, by simp [hb, hl]⟩
    have : l.isEmpty = false := by cases l with
      | nil => exact absurd rfl hl
      | cons => rfl
    rw [if_neg (by simp [this]), selected_embed, selCell_modify h.getSelections hi, hc, if_neg hl]
    rfl

/-- The ids are 32-bit integers. -/
def Ids (l : List Int) : Prop := ∀ v ∈ l, -(2 ^ 31 : Int) ≤ v ∧ v < 2 ^ 31

theorem parseIds_write {l : List Int} (h : Ids l) : parseIds (write intText .spaceOrComma l) = some l := by
  obtain ⟨q, hq⟩ := Verif.ListOf.integers32 .spaceOrComma l h
  unfold parseIds
  rw [hq]

theorem selected_effect (h : Inv st) {l : List Int} (hl : Ids l) : (effectSelection l st).selected = some l := by
  obtain ⟨b, hc, _⟩ := selCell_effect h l
  unfold State.selected
  rw [hc]
  by_cases e : l = []
  · subst e; rfl
  · rw [if_neg e]
    exact parseIds_write hl

theorem selCell_record (h : Inv st) (x : Xml) : (record x st).selCell = st.selCell := by
  have hs := (same_record x st).2.2
  unfold State.selCell
  rw [hs]
  cases hi : st.selection with
  | none => rfl
  | some i =>
    obtain ⟨v, b, hv⟩ := h.selSome i hi
    simp only [Option.bind_some]
    rw [hv]
    unfold record getHistory
    cases hh : st.history with
    | some k =>
      obtain ⟨l, hl⟩ := h.histSome k hh
      have : i ≠ k := by rintro rfl; rw [hl] at hv; cases hv
      simp only [hh, State.modify]
      rw [modify_other this, hv]
    | none =>
      simp only [State.modify]
      have : i ≠ st.cells.length := by have := (List.getElem?_eq_some_iff.1 hv).1; omega
      rw [modify_other this, push_old hv]

theorem selected_record (h : Inv st) (x : Xml) : (record x st).selected = st.selected := by
  unfold State.selected; rw [selCell_record h]

theorem selected_getSelections (h : Inv st) : (getSelections st).selected = st.selected := by
  obtain ⟨v, b, hc, hv, _⟩ := selCell_getSelections h
  unfold State.selected
  rw [hc, ← hv]; rfl

/-- **C39 (selecting).** After a selection the ids found are selected, after an extension also the former ones,
after a deselection none. -/
theorem selects (h : new d = some st) (ops : List Op) (r : Xml) {l : List Int} (hl : Ids l) :
    (step (run st ops) (.select r (some l))).selected = some l ∧
    (∀ old, Ids old → (run st ops).selected = some old →
      (step (run st ops) (.selectMore r (some l))).selected = some (old ++ l)) ∧
    (step (run st ops) (.deselect r)).selected = some [] ∧
    (step (run st ops) (.forget r)).selected = some [] ∧
    (step (run st ops) (.select r none)).selected = (run st ops).selected := by
  have hi := (new_spec h).1.run ops
  refine ⟨selected_effect (hi.record r) hl, ?_, selected_effect (hi.record r) nofun,
    selected_effect (hi.record r) nofun, selected_record hi r⟩
  intro old ho hs
  simp only [step]
  rw [selected_getSelections (hi.record r), selected_record hi, hs]
  refine selected_effect (hi.record r).getSelections ?_
  intro v hv
  rcases List.mem_append.1 hv with hv | hv
  · exact ho v hv
  · exact hl v hv

/-- Specification: the operation leaves nothing selected. -/
def Op.Clears (st : State) : Op → Prop
  | .select _ found => found = some []
  | .selectMore _ found => found = some [] ∧ st.selected = some []
  | .deselect _ => True
  | .forget _ => True
  | .edit _ sels => [] ∈ sels
  | .snapshot => False

theorem attached_of {s s' : State} (h : s'.selCell = s.selCell) : s'.SelAttached ↔ s.SelAttached := by
  unfold State.SelAttached; rw [h]

theorem attached_effect (h : Inv st) (l : List Int) : (effectSelection l st).SelAttached ↔ st.SelAttached ∧ l ≠ [] := by
  obtain ⟨b, hc, hb⟩ := selCell_effect h l
  rw [← hb]
  unfold State.SelAttached
  rw [hc]
  constructor
  · intro h; exact h _ rfl
  · intro h c e; cases e; exact h

theorem attached_getSelections (h : Inv st) : (getSelections st).SelAttached ↔ st.SelAttached := by
  obtain ⟨v, b, hc, _, hb⟩ := selCell_getSelections h
  rw [← hb]
  unfold State.SelAttached
  rw [hc]
  constructor
  · intro h; exact h _ rfl
  · intro h c e; cases e; exact h

theorem attached_edits (h : Inv st) (sels : List (List Int)) :
    (sels.foldl (fun st l => effectSelection l st) st).SelAttached ↔ st.SelAttached ∧ [] ∉ sels := by
  induction sels generalizing st with
  | nil => simp
  | cons l sels ih =>
    rw [List.foldl_cons, ih (h.effectSelection l), attached_effect h, List.mem_cons, not_or, and_assoc]
    constructor
    · rintro ⟨h1, h2, h3⟩; exact ⟨h1, fun e => h2 e.symm, h3⟩
    · rintro ⟨h1, h2, h3⟩; exact ⟨h1, fun e => h2 e.symm, h3⟩

theorem attached_step (h : Inv st) (op : Op) : (step st op).SelAttached ↔ st.SelAttached ∧ ¬ op.Clears st := by
  have hr : ∀ r, (record r st).SelAttached ↔ st.SelAttached := fun r => attached_of (selCell_record h r)
  cases op with
  | select r f =>
    cases f with
    | none => simp [step, setFound, hr, Op.Clears]
    | some l => rw [step, setFound, attached_effect (h.record r), hr]; simp [Op.Clears]
  | selectMore r f =>
    rw [step, selected_getSelections (h.record r), selected_record h]
    have hg : (getSelections (record r st)).SelAttached ↔ st.SelAttached := by
      rw [attached_getSelections (h.record r), hr]
    cases hs : st.selected with
    | none => simp [extend, hg, Op.Clears, hs]
    | some old =>
      cases f with
      | none => simp [extend, setFound, hg, Op.Clears]
      | some l =>
        rw [extend, Option.map_some, setFound, attached_effect (h.record r).getSelections, hg]
        simp only [Op.Clears, hs, Option.some.injEq, ne_eq, List.append_eq_nil_iff]
        constructor
        · rintro ⟨h1, h2⟩; exact ⟨h1, fun h3 => h2 ⟨h3.2, h3.1⟩⟩
        · rintro ⟨h1, h2⟩; exact ⟨h1, fun h3 => h2 ⟨h3.2, h3.1⟩⟩
  | deselect r => rw [step, attached_effect (h.record r)]; simp [Op.Clears]
  | forget r =>
    rw [step, attached_of (s' := removeState (effectSelection [] (record r st))) (s := effectSelection [] (record r st)) rfl,
      attached_effect (h.record r)]
    simp [Op.Clears]
  | edit r sels =>
    rw [step, attached_edits (h.record r).getSelections, attached_getSelections (h.record r), hr]
    exact Iff.rfl
  | snapshot => rw [step, attached_of (selected_embed st)]; simp [Op.Clears]

/-- Specification: at some point of the run nothing was left selected. -/
def Cleared (st : State) (ops : List Op) : Prop := ∃ pre op post, ops = pre ++ op :: post ∧ op.Clears (run st pre)

theorem attached_run (h : Inv st) (ops : List Op) : (run st ops).SelAttached ↔ st.SelAttached ∧ ¬ Cleared st ops := by
  induction ops generalizing st with
  | nil =>
    refine ⟨fun h => ⟨h, ?_⟩, fun h => h.1⟩
    rintro ⟨pre, op, post, e, _⟩
    simp at e
  | cons op ops ih =>
    rw [show run st (op :: ops) = run (step st op) ops from rfl, ih (h.step op), attached_step h, and_assoc]
    refine and_congr_right fun _ => ?_
    constructor
    · rintro ⟨h1, h2⟩ ⟨pre, o, post, e, hc⟩
      cases pre with
      | nil => cases e; exact h1 hc
      | cons o' pre => cases e; exact h2 ⟨pre, o, post, rfl, hc⟩
    · intro h1
      refine ⟨fun h2 => h1 ⟨[], op, ops, rfl, h2⟩, ?_⟩
      rintro ⟨pre, o, post, e, hc⟩
      exact h1 ⟨op :: pre, o, post, by rw [e]; rfl, hc⟩

theorem snapshot_selection (h : Inv st) (ha : st.SelAttached) : (snapshot st).selection = st.selected := by
  unfold Doc.selection
  rw [snapshot, doc_fields, fields_embed]
  rcases embed_inDoc st with h1 | ⟨_, h1⟩
  · rw [h1, if_pos rfl, h.selected ha]
  · have h0 : st.selected = some [] := by unfold State.selected State.selCell; rw [h1]; rfl
    rw [h0]
    split
    · rw [← h.selected ha, h0]
    · rfl

theorem attached_new (h : new d = some st) : st.SelAttached := by
  intro c hc
  unfold State.selCell at hc
  cases hs : st.selection with
  | none => rw [hs] at hc; cases hc
  | some i =>
    rw [hs, Option.bind_some, (new_spec h).2.2.2] at hc
    exact (map_get hc).2

/-- All selection elements but the current one. -/
def Single (st : State) : Prop :=
  ∀ (j : Nat) (c : Cell), st.cells[j]? = some c → st.selection ≠ some j → selOf c.field = none

/-- Specification: the document has at most one selection element. -/
def Doc.Single (d : Doc) : Prop := (d.fields.filterMap selOf).length ≤ 1

theorem two_kinds {l : List Field} {i j : Nat} {f f' : Field} (hij : i < j) (hi : l[i]? = some f) (hj : l[j]? = some f')
    (h1 : (selOf f).isSome = true) (h2 : (selOf f').isSome = true) : 2 ≤ (l.filterMap selOf).length := by
  obtain ⟨hlt, he⟩ := List.getElem?_eq_some_iff.1 hj
  have split : l = l.take j ++ f' :: l.drop (j + 1) := by
    rw [← he, List.getElem_cons_drop]; exact (List.take_append_drop j l).symm
  obtain ⟨v, hv⟩ := Option.isSome_iff_exists.1 h1
  obtain ⟨v', hv'⟩ := Option.isSome_iff_exists.1 h2
  have hm : v ∈ (l.take j).filterMap selOf := by
    rw [List.mem_filterMap]
    refine ⟨f, ?_, hv⟩
    rw [List.mem_iff_getElem?]
    exact ⟨i, by rw [List.getElem?_take]; simp [hij, hi]⟩
  have := List.length_pos_of_mem hm
  rw [split, List.filterMap_append, List.filterMap_cons_some hv']
  simp
  omega

theorem single_new (h : new d = some st) (hd : d.Single) : Single st := by
  obtain ⟨hi, _, _, hc⟩ := new_spec h
  intro j c hj hne
  cases hs : st.selection with
  | none => exact hi.selNone hs j c hj
  | some i =>
    obtain ⟨v, b, hv⟩ := hi.selSome i hs
    have hji : j ≠ i := by rintro rfl; exact hne hs
    rcases Nat.lt_or_gt_of_ne hji with hlt | hgt
    · cases hx : selOf c.field with
      | none => rfl
      | some w =>
        rw [hc] at hj hv
        have := two_kinds hlt (map_get hj).1 (map_get hv).1 (by rw [hx]; rfl) rfl
        unfold Doc.Single at hd
        omega
    · exact hi.selLast i j c hs hgt hj

theorem Single.getSelections (h : Single st) : Single (getSelections st) := by
  unfold Actions.getSelections
  cases hs : st.selection with
  | some i => exact h
  | none =>
    intro j c hj hne
    rcases getElem_push hj with hj | ⟨rfl, _⟩
    · exact h j c hj (by rw [hs]; nofun)
    · exact absurd rfl hne

theorem Single.record (h : Single st) (x : Xml) : Single (record x st) := by
  have push : ∀ (l : List Cell) (i j : Nat) (c : Cell), (l.modify i (Cell.push x))[j]? = some c →
      ∃ c', l[j]? = some c' ∧ selOf c.field = selOf c'.field := by
    intro l i j c hj
    rcases get_modify hj with ⟨_, h1⟩ | ⟨_, c', h1, rfl⟩
    · exact ⟨c, h1, rfl⟩
    · refine ⟨c', h1, ?_⟩
      unfold Cell.push
      obtain ⟨f, b⟩ := c'
      cases f <;> rfl
  intro j c hj hne
  rw [(same_record x st).2.2] at hne
  unfold Actions.record Actions.getHistory at hj
  cases hh : st.history with
  | some k =>
    simp only [hh, State.modify] at hj
    obtain ⟨c', h1, h2⟩ := push _ _ _ _ hj
    rw [h2]
    exact h j c' h1 hne
  | none =>
    simp only [hh, State.modify] at hj
    obtain ⟨c', h1, h2⟩ := push _ _ _ _ hj
    rw [h2]
    rcases getElem_push h1 with h1 | ⟨_, rfl⟩
    · exact h j c' h1 hne
    · rfl

theorem Single.modify (h : Single st) (f : Cell → Cell) {i : Nat} (hi : st.selection = some i) :
    Single (st.modify f (some i)) := by
  intro j c hj hne
  rcases get_modify hj with ⟨_, h1⟩ | ⟨rfl, _⟩
  · exact h j c h1 hne
  · exact absurd hi hne

theorem Single.embedState (h : Single st) : Single (embedState st) := by
  unfold Actions.embedState
  split
  · exact h
  · split <;> exact h

theorem Single.effect (h : Single st) (l : List Int) : Single (effectSelection l st) := by
  obtain ⟨i, hi⟩ := getSelections_some st
  unfold effectSelection
  simp only [hi]
  split
  · exact h.getSelections.modify _ hi
  · exact (h.getSelections.modify _ hi).embedState

theorem Single.step (h : Single st) (op : Op) : Single (step st op) := by
  cases op with
  | select r f => cases f with
    | none => exact h.record r
    | some l => exact (h.record r).effect l
  | selectMore r f =>
    simp only [Actions.step]
    cases (Actions.getSelections (Actions.record r st)).selected with
    | none => exact (h.record r).getSelections
    | some old => cases f with
      | none => exact (h.record r).getSelections
      | some l => exact (h.record r).getSelections.effect _
  | deselect r => exact (h.record r).effect []
  | forget r => exact (h.record r).effect []
  | edit r sels =>
    have : ∀ (s : State), Single s → Single (sels.foldl (fun st l => effectSelection l st) s) := by
      induction sels with
      | nil => exact fun s h => h
      | cons l sels ih => exact fun s h => ih _ (h.effect l)
    exact this _ (h.record r).getSelections
  | snapshot => exact h.embedState

theorem Single.run (h : Single st) (ops : List Op) : Single (run st ops) := by
  induction ops generalizing st with
  | nil => exact h
  | cons op ops ih => exact ih (h.step op)

theorem snapshot_detached (_h : Inv st) (hs : Single st) (ha : ¬ st.SelAttached) : (snapshot st).selection = some [] := by
  have hn : st.fields.filterMap selOf = [] := by
    apply no_kind
    intro j c hj hc
    by_cases e : st.selection = some j
    · exfalso
      apply ha
      intro c' hc'
      rw [selCell_get e, hj] at hc'
      cases hc'
      exact hc
    · exact hs j c hj e
  unfold Doc.selection
  rw [snapshot, doc_fields, fields_embed]
  split
  · rw [hn]; rfl
  · rfl

/-- **C39 (selection).** The selection is saved if and only if nothing is selected, or no earlier operation left
nothing selected: once the selection has been empty, later selections are not saved. -/
theorem selection_kept_iff (h : new d = some st) (hd : d.Single) (ops : List Op) :
    (snapshot (run st ops)).selection = (run st ops).selected ↔
      (run st ops).selected = some [] ∨ ¬ Cleared st ops := by
  have hi := (new_spec h).1.run ops
  have ha := attached_run (new_spec h).1 ops
  by_cases hc : Cleared st ops
  · have hna : ¬ (run st ops).SelAttached := fun h' => (ha.1 h').2 hc
    rw [snapshot_detached hi ((single_new h hd).run ops) hna]
    constructor
    · intro e; exact .inl e.symm
    · rintro (e | e)
      · exact e.symm
      · exact absurd hc e
  · rw [snapshot_selection hi (ha.2 ⟨attached_new h, hc⟩)]
    simp [hc]

/-- **C39 (selection, for every document).** Unless the selection was empty at some point, it is saved. -/
theorem selection_kept_partial (h : new d = some st) {ops : List Op} (hc : ¬ Cleared st ops) :
    (snapshot (run st ops)).selection = (run st ops).selected :=
  snapshot_selection ((new_spec h).1.run ops) ((attached_run (new_spec h).1 ops).2 ⟨attached_new h, hc⟩)

/-- **C39 (violated).** Selecting something after `deselect` is not saved: the document says that nothing is
selected. -/
theorem reselect_violated (h : new d = some st) (hd : d.Single) (r r' : Xml) {l : List Int} (hl : Ids l) (hne : l ≠ []) :
    (run st [.deselect r, .select r' (some l)]).selected = some l ∧
    (snapshot (run st [.deselect r, .select r' (some l)])).selection = some [] ∧
    (snapshot (run st [.deselect r, .select r' (some l)])).selection ≠ (run st [.deselect r, .select r' (some l)]).selected := by
  have hs : (run st [.deselect r, .select r' (some l)]).selected = some l := (selects h [.deselect r] r' hl).1
  have hi := (new_spec h).1.run [.deselect r, .select r' (some l)]
  have he : (snapshot (run st [.deselect r, .select r' (some l)])).selection = some [] := by
    refine snapshot_detached hi ((single_new h hd).run _) ?_
    intro ha
    exact ((attached_run (new_spec h).1 _).1 ha).2 ⟨[], .deselect r, [.select r' (some l)], rfl, trivial⟩
  refine ⟨hs, he, ?_⟩
  rw [he, hs]
  intro e
  exact hne (Option.some.inj e).symm

/-! ## The command line -/

/-- Specification: the operation selects something (or writes the document). -/
def Op.Shows (st : State) : Op → Prop
  | .select _ found => ∃ l, found = some l ∧ l ≠ []
  | .selectMore _ found => ∃ old l, st.selected = some old ∧ found = some l ∧ old ++ l ≠ []
  | .deselect _ => False
  | .forget _ => False
  | .edit _ sels => ∃ l ∈ sels, l ≠ []
  | .snapshot => st.history ≠ none ∨ st.selection ≠ none

/-- The operation is `forget`. -/
def Op.Forgets : Op → Prop
  | .forget _ => True
  | _ => False

theorem inDoc_embed (st : State) :
    (embedState st).inDoc = true ↔ st.inDoc = true ∨ st.history ≠ none ∨ st.selection ≠ none := by
  unfold embedState
  cases h1 : st.history <;> cases h2 : st.selection <;> cases h3 : st.inDoc <;> simp [h3]

theorem inDoc_effect (st : State) (l : List Int) :
    (effectSelection l st).inDoc = true ↔ st.inDoc = true ∨ l ≠ [] := by
  obtain ⟨i, hi⟩ := getSelections_some st
  unfold effectSelection
  simp only [hi]
  by_cases hl : l = []
  · subst hl
    rw [if_pos (by rfl), (same_modify _ _ _).1, (same_getSelections st).1]
    simp
  · have : l.isEmpty = false := by cases l with
      | nil => exact absurd rfl hl
      | cons => rfl
    rw [if_neg (by simp [this]), inDoc_embed, (same_modify _ _ _).2.2.1, hi]
    simp [hl]

theorem inDoc_edits (sels : List (List Int)) (st : State) :
    (sels.foldl (fun st l => effectSelection l st) st).inDoc = true ↔ st.inDoc = true ∨ ∃ l ∈ sels, l ≠ [] := by
  induction sels generalizing st with
  | nil => simp
  | cons l sels ih => rw [List.foldl_cons, ih, inDoc_effect]; simp [or_assoc]

theorem inDoc_step (h : Inv st) (op : Op) :
    (step st op).inDoc = true ↔ (st.inDoc = true ∧ ¬ op.Forgets) ∨ op.Shows st := by
  have hr : ∀ r, (record r st).inDoc = st.inDoc := fun r => (same_record r st).1
  have hg : ∀ s, (getSelections s).inDoc = s.inDoc := fun s => (same_getSelections s).1
  cases op with
  | select r f => cases f with
    | none => simp [step, setFound, hr, Op.Forgets, Op.Shows]
    | some l => rw [step, setFound, inDoc_effect, hr]; simp [Op.Forgets, Op.Shows]
  | selectMore r f =>
    rw [step, selected_getSelections (h.record r), selected_record h]
    cases hs : st.selected with
    | none => simp [extend, hg, hr, Op.Forgets, Op.Shows, hs]
    | some old => cases f with
      | none => simp [extend, setFound, hg, hr, Op.Forgets, Op.Shows]
      | some l =>
        rw [extend, Option.map_some, setFound, inDoc_effect, hg, hr]
        simp [Op.Forgets, Op.Shows, hs]
  | deselect r => rw [step, inDoc_effect, hr]; simp [Op.Forgets, Op.Shows]
  | forget r => simp [step, removeState, Op.Forgets, Op.Shows]
  | edit r sels => rw [step, inDoc_edits, hg, hr]; simp [Op.Forgets, Op.Shows]
  | snapshot => rw [step, inDoc_embed]; simp [Op.Forgets, Op.Shows]

/-- Specification: something was selected, and nothing was forgotten since. -/
def Shown (st : State) (ops : List Op) : Prop :=
  ∃ pre op post, ops = pre ++ op :: post ∧ op.Shows (run st pre) ∧ ∀ o ∈ post, ¬ o.Forgets

theorem inDoc_run (h : Inv st) (ops : List Op) :
    (run st ops).inDoc = true ↔ (st.inDoc = true ∧ ∀ o ∈ ops, ¬ o.Forgets) ∨ Shown st ops := by
  induction ops generalizing st with
  | nil =>
    constructor
    · intro h; exact .inl ⟨h, by simp⟩
    · rintro (⟨h, _⟩ | ⟨pre, op, post, e, _⟩)
      · exact h
      · simp at e
  | cons op ops ih =>
    rw [show run st (op :: ops) = run (step st op) ops from rfl, ih (h.step op), inDoc_step h]
    constructor
    · rintro (⟨⟨h1, h2⟩ | h1, h3⟩ | ⟨pre, o, post, e, h1, h2⟩)
      · exact .inl ⟨h1, by simpa using ⟨h2, h3⟩⟩
      · exact .inr ⟨[], op, ops, rfl, h1, h3⟩
      · exact .inr ⟨op :: pre, o, post, by rw [e]; rfl, h1, h2⟩
    · rintro (⟨h1, h2⟩ | ⟨pre, o, post, e, h1, h2⟩)
      · exact .inl ⟨.inl ⟨h1, h2 op (by simp)⟩, fun o ho => h2 o (by simp [ho])⟩
      · cases pre with
        | nil => cases e; exact .inl ⟨.inr h1, h2⟩
        | cons o' pre => cases e; exact .inr ⟨pre, o, post, rfl, h1, h2⟩

/-- **C39 (command line).** The document written by `oxvg action` has a state if and only if something was selected
in this run and not forgotten since. Then its history is complete; otherwise all history is gone, also the one
that the document had before. -/
theorem commandLine_spec (h : new d = some st) (ops : List Op) :
    ∃ d', commandLine d ops = some d' ∧ (d'.state.isSome = true ↔ Shown st ops) ∧
      (Shown st ops → d'.history = d.history ++ ops.filterMap Op.rec?) ∧ (¬ Shown st ops → d'.history = []) := by
  have hi := (new_spec h).1.run ops
  have hin := inDoc_run (new_spec h).1 ops
  rw [(new_spec h).2.1] at hin
  have hin : (run st ops).inDoc = true ↔ Shown st ops := by simpa using hin
  refine ⟨(run st ops).doc, by rw [commandLine, h]; rfl, ?_, ?_, ?_⟩
  · rw [← hin]
    unfold State.doc
    cases (run st ops).inDoc <;> simp
  · intro hs
    unfold Doc.history
    rw [doc_fields, if_pos (hin.2 hs), ← hi.recorded, recorded_run (new_spec h).1, (opened h).1]
    rfl
  · intro hs
    unfold Doc.history
    rw [doc_fields, if_neg (fun e => hs (hin.1 e))]
    rfl

/-- **C39 (command line, violated).** Actions that do not select anything (for instance `-attr`) make the command
line drop the history and the selection of every document. -/
theorem commandLine_violated (h : new d = some st) (recs : List Xml) :
    ∃ d', commandLine d (recs.map fun r => .edit r []) = some d' ∧ d'.state = none ∧ d'.history = [] ∧
      d'.selection = some [] := by
  have hn : ¬ Shown st (recs.map fun r => .edit r []) := by
    rintro ⟨pre, op, post, e, h1, _⟩
    have : op ∈ recs.map fun r => Op.edit r [] := by rw [e]; simp
    obtain ⟨r, _, rfl⟩ := List.mem_map.1 this
    obtain ⟨l, hl, _⟩ := h1
    cases hl
  obtain ⟨d', h1, h2, h3, h4⟩ := commandLine_spec h (recs.map fun r => .edit r [])
  have hs : d'.state = none := by
    cases e : d'.state with
    | none => rfl
    | some x => rw [e] at h2; exact absurd (h2.1 rfl) hn
  refine ⟨d', h1, hs, h4 hn, ?_⟩
  unfold Doc.selection Doc.fields
  rw [hs]; rfl

/-! ## Examples -/

/-- A document with two recorded actions and a selection. -/
def demo : Doc :=
  ⟨true, some [.history [embed id (.select "path"), embed id (.attr "fill" "red")], .selection (some "4 6".toList)]⟩

/-- What the example finds in its state. -/
def demoState : State :=
  ⟨[⟨.history [embed id (.select "path"), embed id (.attr "fill" "red")], true⟩, ⟨.selection (some "4 6".toList), true⟩],
    some 0, some 1, false, true⟩

theorem demo_new : new demo = some demoState := rfl

example : demo.history.length = 2 ∧ demo.selection = some [4, 6] := by decide +kernel
example : (snapshot (run demoState [.select (embed id (.select "g")) (some [3]), .edit (embed id (.cls "a")) []])).history
    = demo.history ++ [embed id (.select "g"), embed id (.cls "a")] := history_kept demo_new _
example : (snapshot (run demoState [.select (embed id (.select "g")) (some [3])])).selection = some [3] := by decide +kernel
example : (snapshot (run demoState [.selectMore (embed id (.selectMore "g")) (some [3])])).selection = some [4, 6, 3] := by
  decide +kernel
example : (snapshot (run demoState [.deselect (embed id .deselect), .select (embed id (.select "g")) (some [3])])).selection
    = some [] := (reselect_violated demo_new (by unfold Doc.Single; decide) _ _ (l := [3]) (by unfold Ids; decide) (by decide)).2.1
example : ∃ d', commandLine demo ([embed id (.cls "a")].map fun r => .edit r []) = some d' ∧ d'.state = none ∧
    d'.history = [] ∧ d'.selection = some [] := commandLine_violated demo_new _

end Verif.Actions
