import Verif.Actions.State
import Verif.ListOf.Props

/-! # The state of an actor: invariant -/

namespace Verif.Actions

open Verif.ListOf (Sep write parseString parseList intText)

/-- The actions of a history element. -/
def histOf : Field → Option (List Xml)
  | .history l => some l
  | _ => none

/-- The ids attribute of a selection element. -/
def selOf : Field → Option (Option (List Char))
  | .selection v => some v
  | _ => none

/-- Specification: the actions recorded in a document are those in its last history element. -/
def Doc.history (d : Doc) : List Xml := ((d.fields.filterMap histOf).getLast?).getD []

/-- Specification: the selection of a document is the one in its last selection element. -/
def Doc.selection (d : Doc) : Option (List Int) := idsOf ((d.fields.filterMap selOf).getLast?).join

/-- Specification: the document has a state the actor accepts. -/
def Doc.Valid (d : Doc) : Prop := ∀ f ∈ d.fields, f ≠ .foreign

structure Inv (st : State) : Prop where
  histNone : st.history = none → ∀ (j : Nat) (c : Cell), st.cells[j]? = some c → histOf c.field = none
  histSome : ∀ i, st.history = some i → ∃ l, st.cells[i]? = some ⟨.history l, true⟩
  histLast : ∀ (i j : Nat) (c : Cell), st.history = some i → i < j → st.cells[j]? = some c → histOf c.field = none
  selNone : st.selection = none → ∀ (j : Nat) (c : Cell), st.cells[j]? = some c → selOf c.field = none
  selSome : ∀ i, st.selection = some i → ∃ v b, st.cells[i]? = some ⟨.selection v, b⟩
  selLast : ∀ (i j : Nat) (c : Cell), st.selection = some i → i < j → st.cells[j]? = some c → selOf c.field = none
  att : ∀ (j : Nat) (c : Cell), st.cells[j]? = some c → c.attached = false → st.selection = some j
  valid : ∀ (j : Nat) (c : Cell), st.cells[j]? = some c → c.field ≠ .foreign

theorem getElem_push {l : List Cell} {a c : Cell} {j : Nat} (h : (l ++ [a])[j]? = some c) :
    l[j]? = some c ∨ (j = l.length ∧ c = a) := by
  rw [List.getElem?_append] at h
  split at h
  · exact .inl h
  · next hj =>
    have : j - l.length = 0 := by
      rcases Nat.eq_zero_or_pos (j - l.length) with h' | h'
      · exact h'
      · rw [List.getElem?_eq_none (by simp; omega)] at h; cases h
    rw [this] at h
    simp at h
    exact .inr ⟨by omega, h.symm⟩

theorem push_old {l : List Cell} {a c : Cell} {j : Nat} (h : l[j]? = some c) : (l ++ [a])[j]? = some c := by
  rw [List.getElem?_append, if_pos (List.getElem?_eq_some_iff.1 h).1, h]

theorem Inv.getSelections {st : State} (h : Inv st) : Inv (getSelections st) := by
  unfold Actions.getSelections
  cases hs : st.selection with
  | some i => exact h
  | none =>
    have lt : ∀ {j : Nat} {c : Cell}, st.cells[j]? = some c → j < st.cells.length :=
      fun hj => (List.getElem?_eq_some_iff.1 hj).1
    refine ⟨?_, ?_, ?_, ?_, ?_, ?_, ?_, ?_⟩
    · intro hh j c hj
      rcases getElem_push hj with hj | ⟨_, rfl⟩
      · exact h.histNone hh j c hj
      · rfl
    · intro i hi
      obtain ⟨l, hl⟩ := h.histSome i hi
      exact ⟨l, push_old hl⟩
    · intro i j c hi hij hj
      rcases getElem_push hj with hj | ⟨_, rfl⟩
      · exact h.histLast i j c hi hij hj
      · rfl
    · intro hn; cases hn
    · intro i hi
      cases hi
      exact ⟨none, true, by simp⟩
    · intro i j c hi hij hj
      cases hi
      rcases getElem_push hj with hj | ⟨hj, _⟩
      · exact absurd (lt hj) (by omega)
      · omega
    · intro j c hj ha
      rcases getElem_push hj with hj | ⟨_, rfl⟩
      · rw [h.att j c hj ha] at hs; cases hs
      · cases ha
    · intro j c hj
      rcases getElem_push hj with hj | ⟨_, rfl⟩
      · exact h.valid j c hj
      · intro e; cases e

theorem Inv.getHistory {st : State} (h : Inv st) : Inv (getHistory st) := by
  unfold Actions.getHistory
  cases hs : st.history with
  | some i => exact h
  | none =>
    have lt : ∀ {j : Nat} {c : Cell}, st.cells[j]? = some c → j < st.cells.length :=
      fun hj => (List.getElem?_eq_some_iff.1 hj).1
    refine ⟨?_, ?_, ?_, ?_, ?_, ?_, ?_, ?_⟩
    · intro hn; cases hn
    · intro i hi
      cases hi
      exact ⟨[], by simp⟩
    · intro i j c hi hij hj
      cases hi
      rcases getElem_push hj with hj | ⟨hj, _⟩
      · exact absurd (lt hj) (by omega)
      · omega
    · intro hh j c hj
      rcases getElem_push hj with hj | ⟨_, rfl⟩
      · exact h.selNone hh j c hj
      · rfl
    · intro i hi
      obtain ⟨v, b, hl⟩ := h.selSome i hi
      exact ⟨v, b, push_old hl⟩
    · intro i j c hi hij hj
      rcases getElem_push hj with hj | ⟨_, rfl⟩
      · exact h.selLast i j c hi hij hj
      · rfl
    · intro j c hj ha
      rcases getElem_push hj with hj | ⟨_, rfl⟩
      · exact h.att j c hj ha
      · cases ha
    · intro j c hj
      rcases getElem_push hj with hj | ⟨_, rfl⟩
      · exact h.valid j c hj
      · intro e; cases e

theorem get_modify {l : List Cell} {f : Cell → Cell} {i j : Nat} {c : Cell} (h : (l.modify i f)[j]? = some c) :
    (j ≠ i ∧ l[j]? = some c) ∨ (j = i ∧ ∃ c', l[j]? = some c' ∧ c = f c') := by
  rw [List.getElem?_modify] at h
  by_cases hij : i = j
  · subst hij
    simp at h
    obtain ⟨c', h1, h2⟩ := h
    exact .inr ⟨rfl, c', h1, h2.symm⟩
  · simp [hij] at h
    exact .inl ⟨fun e => hij e.symm, h⟩

theorem modify_other {l : List Cell} {f : Cell → Cell} {i j : Nat} (h : j ≠ i) : (l.modify i f)[j]? = l[j]? := by
  rw [List.getElem?_modify]
  have : ¬ i = j := fun e => h e.symm
  simp [this]

theorem modify_same {l : List Cell} {f : Cell → Cell} {i : Nat} {c : Cell} (h : l[i]? = some c) :
    (l.modify i f)[i]? = some (f c) := by
  rw [List.getElem?_modify, h]
  simp

/-- Changing the history element to another one. -/
theorem Inv.modifyHist {st : State} (h : Inv st) {i : Nat} (hi : st.history = some i) {f : Cell → Cell}
    (hf : ∀ l b, ∃ l', f ⟨.history l, b⟩ = ⟨.history l', b⟩) : Inv (st.modify f (some i)) := by
  obtain ⟨l, hl⟩ := h.histSome i hi
  obtain ⟨l', hl'⟩ := hf l true
  have key : ∀ (j : Nat) (c : Cell), (st.cells.modify i f)[j]? = some c →
      (j ≠ i ∧ st.cells[j]? = some c) ∨ (j = i ∧ c = ⟨.history l', true⟩) := by
    intro j c hj
    rcases get_modify hj with h1 | ⟨rfl, c', h1, h2⟩
    · exact .inl h1
    · rw [hl] at h1; cases h1
      exact .inr ⟨rfl, by rw [h2, hl']⟩
  refine ⟨?_, ?_, ?_, ?_, ?_, ?_, ?_, ?_⟩
  · intro hn
    rw [show (st.modify f (some i)).history = st.history from rfl, hi] at hn
    cases hn
  · intro k hk
    rw [show (st.modify f (some i)).history = st.history from rfl, hi] at hk
    cases hk
    exact ⟨l', by show (st.cells.modify i f)[i]? = _; rw [modify_same hl, hl']⟩
  · intro k j c hk hkj hj
    rw [show (st.modify f (some i)).history = st.history from rfl, hi] at hk
    cases hk
    rcases key j c hj with ⟨_, hj⟩ | ⟨rfl, rfl⟩
    · exact h.histLast i j c hi hkj hj
    · omega
  · intro hn j c hj
    rcases key j c hj with ⟨_, hj⟩ | ⟨rfl, rfl⟩
    · exact h.selNone hn j c hj
    · rfl
  · intro k hk
    obtain ⟨v, b, hv⟩ := h.selSome k hk
    have : k ≠ i := by rintro rfl; rw [hl] at hv; cases hv
    exact ⟨v, b, by show (st.cells.modify i f)[k]? = _; rw [modify_other this, hv]⟩
  · intro k j c hk hkj hj
    rcases key j c hj with ⟨_, hj⟩ | ⟨rfl, rfl⟩
    · exact h.selLast k j c hk hkj hj
    · rfl
  · intro j c hj ha
    rcases key j c hj with ⟨_, hj⟩ | ⟨rfl, rfl⟩
    · exact h.att j c hj ha
    · cases ha
  · intro j c hj
    rcases key j c hj with ⟨_, hj⟩ | ⟨rfl, rfl⟩
    · exact h.valid j c hj
    · intro e; cases e

/-- Changing the selection element to another one, possibly a detached one. -/
theorem Inv.modifySel {st : State} (h : Inv st) {i : Nat} (hi : st.selection = some i) {f : Cell → Cell}
    (hf : ∀ v b, ∃ v' b', f ⟨.selection v, b⟩ = ⟨.selection v', b'⟩) : Inv (st.modify f (some i)) := by
  obtain ⟨v, b, hl⟩ := h.selSome i hi
  obtain ⟨v', b', hl'⟩ := hf v b
  have key : ∀ (j : Nat) (c : Cell), (st.cells.modify i f)[j]? = some c →
      (j ≠ i ∧ st.cells[j]? = some c) ∨ (j = i ∧ c = ⟨.selection v', b'⟩) := by
    intro j c hj
    rcases get_modify hj with h1 | ⟨rfl, c', h1, h2⟩
    · exact .inl h1
    · rw [hl] at h1; cases h1
      exact .inr ⟨rfl, by rw [h2, hl']⟩
  refine ⟨?_, ?_, ?_, ?_, ?_, ?_, ?_, ?_⟩
  · intro hn j c hj
    rcases key j c hj with ⟨_, hj⟩ | ⟨rfl, rfl⟩
    · exact h.histNone hn j c hj
    · rfl
  · intro k hk
    obtain ⟨l, hv⟩ := h.histSome k hk
    have : k ≠ i := by rintro rfl; rw [hl] at hv; cases hv
    exact ⟨l, by show (st.cells.modify i f)[k]? = _; rw [modify_other this, hv]⟩
  · intro k j c hk hkj hj
    rcases key j c hj with ⟨_, hj⟩ | ⟨rfl, rfl⟩
    · exact h.histLast k j c hk hkj hj
    · rfl
  · intro hn
    rw [show (st.modify f (some i)).selection = st.selection from rfl, hi] at hn
    cases hn
  · intro k hk
    rw [show (st.modify f (some i)).selection = st.selection from rfl, hi] at hk
    cases hk
    exact ⟨v', b', by show (st.cells.modify i f)[i]? = _; rw [modify_same hl, hl']⟩
  · intro k j c hk hkj hj
    rw [show (st.modify f (some i)).selection = st.selection from rfl, hi] at hk
    cases hk
    rcases key j c hj with ⟨_, hj⟩ | ⟨rfl, rfl⟩
    · exact h.selLast i j c hi hkj hj
    · omega
  · intro j c hj ha
    rcases key j c hj with ⟨_, hj⟩ | ⟨rfl, rfl⟩
    · exact h.att j c hj ha
    · exact hi
  · intro j c hj
    rcases key j c hj with ⟨_, hj⟩ | ⟨rfl, rfl⟩
    · exact h.valid j c hj
    · intro e; cases e

theorem getHistory_some (st : State) : ∃ i, (getHistory st).history = some i := by
  unfold getHistory
  cases h : st.history with
  | none => exact ⟨_, rfl⟩
  | some i => exact ⟨i, h⟩

theorem getSelections_some (st : State) : ∃ i, (getSelections st).selection = some i := by
  unfold getSelections
  cases h : st.selection with
  | none => exact ⟨_, rfl⟩
  | some i => exact ⟨i, h⟩

theorem Inv.record {st : State} (h : Inv st) (x : Xml) : Inv (record x st) := by
  obtain ⟨i, hi⟩ := getHistory_some st
  unfold Actions.record
  rw [hi]
  exact h.getHistory.modifyHist hi fun l b => ⟨_, rfl⟩

theorem Inv.embedState {st : State} (h : Inv st) : Inv (embedState st) := by
  unfold Actions.embedState
  split
  · exact h
  · split
    · exact h
    · exact ⟨h.1, h.2, h.3, h.4, h.5, h.6, h.7, h.8⟩

theorem Inv.effectSelection {st : State} (h : Inv st) (ids : List Int) : Inv (effectSelection ids st) := by
  obtain ⟨i, hi⟩ := getSelections_some st
  unfold Actions.effectSelection
  simp only [hi]
  split
  · exact h.getSelections.modifySel hi fun v b => ⟨_, _, rfl⟩
  · exact (h.getSelections.modifySel hi fun v b => ⟨_, _, rfl⟩).embedState

theorem Inv.setFound {st : State} (h : Inv st) (f : Option (List Int)) : Inv (setFound st f) := by
  cases f with
  | none => exact h
  | some l => exact h.effectSelection l

theorem Inv.edits {st : State} (h : Inv st) (sels : List (List Int)) :
    Inv (sels.foldl (fun st l => Actions.effectSelection l st) st) := by
  induction sels generalizing st with
  | nil => exact h
  | cons l sels ih => exact ih (h.effectSelection l)

theorem Inv.step {st : State} (h : Inv st) (op : Op) : Inv (step st op) := by
  cases op with
  | select r f => exact (h.record r).setFound f
  | selectMore r f =>
    simp only [Actions.step]
    cases (Actions.getSelections (Actions.record r st)).selected with
    | none => exact (h.record r).getSelections
    | some old => exact (h.record r).getSelections.setFound _
  | deselect r => exact (h.record r).effectSelection []
  | forget r =>
    have := (h.record r).effectSelection []
    exact ⟨this.1, this.2, this.3, this.4, this.5, this.6, this.7, this.8⟩
  | edit r sels => exact (h.record r).getSelections.edits sels
  | snapshot => exact h.embedState

theorem Inv.run {st : State} (h : Inv st) (ops : List Op) : Inv (run st ops) := by
  induction ops generalizing st with
  | nil => exact h
  | cons op ops ih => exact ih (h.step op)

/-! ## Opening a document -/

/-- What holds in the middle of the loop of `debed`, the first `n` children being done. -/
structure Mid (fs : List Field) (n : Nat) (st : State) : Prop where
  cells : st.cells = fs.map fun f => ⟨f, true⟩
  histNone : st.history = none → ∀ (j : Nat) (f : Field), j < n → fs[j]? = some f → histOf f = none
  histSome : ∀ i, st.history = some i → i < n ∧ ∃ l, fs[i]? = some (.history l)
  histLast : ∀ (i j : Nat) (f : Field), st.history = some i → i < j → j < n → fs[j]? = some f → histOf f = none
  selNone : st.selection = none → ∀ (j : Nat) (f : Field), j < n → fs[j]? = some f → selOf f = none
  selSome : ∀ i, st.selection = some i → i < n ∧ ∃ v, fs[i]? = some (.selection v)
  selLast : ∀ (i j : Nat) (f : Field), st.selection = some i → i < j → j < n → fs[j]? = some f → selOf f = none
  inDoc : st.inDoc = false

theorem Mid.next {fs : List Field} {n : Nat} {st st' : State} {f : Field} (h : Mid fs n st) (hf : fs[n]? = some f)
    (hd : debedField n f st = some st') : Mid fs (n + 1) st' := by
  cases f with
  | foreign => cases hd
  | history l =>
    cases hd
    refine ⟨h.cells, nofun, ?_, ?_, ?_, ?_, ?_, h.inDoc⟩
    · intro i hi; cases hi; exact ⟨Nat.lt_succ_self _, l, hf⟩
    · intro i j f hi; cases hi; intro _ _; omega
    · intro hn j f hj hjf
      by_cases e : j = n
      · subst e; rw [hf] at hjf; cases hjf; rfl
      · exact h.selNone hn j f (by omega) hjf
    · intro i hi
      obtain ⟨h1, h2⟩ := h.selSome i hi
      exact ⟨by omega, h2⟩
    · intro i j f hi hij hj hjf
      by_cases e : j = n
      · subst e; rw [hf] at hjf; cases hjf; rfl
      · exact h.selLast i j f hi hij (by omega) hjf
  | selection l =>
    cases hd
    refine ⟨h.cells, ?_, ?_, ?_, nofun, ?_, ?_, h.inDoc⟩
    · intro hn j f hj hjf
      by_cases e : j = n
      · subst e; rw [hf] at hjf; cases hjf; rfl
      · exact h.histNone hn j f (by omega) hjf
    · intro i hi
      obtain ⟨h1, h2⟩ := h.histSome i hi
      exact ⟨by omega, h2⟩
    · intro i j f hi hij hj hjf
      by_cases e : j = n
      · subst e; rw [hf] at hjf; cases hjf; rfl
      · exact h.histLast i j f hi hij (by omega) hjf
    · intro i hi; cases hi; exact ⟨Nat.lt_succ_self _, l, hf⟩
    · intro i j f hi; cases hi; intro _ _; omega

theorem debed_mid {fs : List Field} (hv : ∀ f ∈ fs, f ≠ .foreign) : ∀ (rest done : List Field) (st : State),
    fs = done ++ rest → Mid fs done.length st →
    ∃ st', debedFields done.length rest st = some st' ∧ Mid fs fs.length st' ∧ st'.declared = st.declared := by
  intro rest
  induction rest with
  | nil =>
    intro done st e h
    refine ⟨st, rfl, ?_, rfl⟩
    rw [e, List.append_nil] at h ⊢
    exact h
  | cons f rest ih =>
    intro done st e h
    have hf : fs[done.length]? = some f := by rw [e]; simp
    have hne : f ≠ .foreign := hv f (by rw [e]; simp)
    obtain ⟨st1, h1, h1'⟩ : ∃ st1, debedField done.length f st = some st1 ∧ st1.declared = st.declared := by
      cases f with
      | foreign => exact absurd rfl hne
      | history l => exact ⟨_, rfl, rfl⟩
      | selection v => exact ⟨_, rfl, rfl⟩
    obtain ⟨st', h2, h3, h4⟩ := ih (done ++ [f]) st1 (by rw [e]; simp) (by simpa using h.next hf h1)
    refine ⟨st', ?_, h3, by rw [h4, h1']⟩
    simp only [debedFields, h1, Option.bind_some]
    simpa using h2

theorem map_get {fs : List Field} {j : Nat} {c : Cell} (h : (fs.map fun f => (⟨f, true⟩ : Cell))[j]? = some c) :
    fs[j]? = some c.field ∧ c.attached = true := by
  rw [List.getElem?_map] at h
  cases hf : fs[j]? with
  | none => rw [hf] at h; cases h
  | some f => rw [hf] at h; cases h; exact ⟨rfl, rfl⟩

theorem new_inv {d : Doc} (hv : d.Valid) :
    ∃ st, new d = some st ∧ Inv st ∧ st.inDoc = false ∧ st.declared = d.declared ∧
      st.cells = d.fields.map fun f => ⟨f, true⟩ := by
  obtain ⟨st, h1, h2, h3⟩ := debed_mid hv d.fields []
    { cells := d.fields.map fun f => ⟨f, true⟩, history := none, selection := none, inDoc := false,
      declared := d.declared } rfl
    ⟨rfl, by simp, nofun, nofun, by simp, nofun, nofun, rfl⟩
  have lt : ∀ {j : Nat} {f : Field}, d.fields[j]? = some f → j < d.fields.length :=
    fun hj => (List.getElem?_eq_some_iff.1 hj).1
  refine ⟨st, h1, ⟨?_, ?_, ?_, ?_, ?_, ?_, ?_, ?_⟩, h2.inDoc, h3, h2.cells⟩
  · intro hn j c hj
    rw [h2.cells] at hj
    exact h2.histNone hn j _ (lt (map_get hj).1) (map_get hj).1
  · intro i hi
    obtain ⟨_, l, hl⟩ := h2.histSome i hi
    exact ⟨l, by rw [h2.cells, List.getElem?_map, hl]; rfl⟩
  · intro i j c hi hij hj
    rw [h2.cells] at hj
    exact h2.histLast i j _ hi hij (lt (map_get hj).1) (map_get hj).1
  · intro hn j c hj
    rw [h2.cells] at hj
    exact h2.selNone hn j _ (lt (map_get hj).1) (map_get hj).1
  · intro i hi
    obtain ⟨_, v, hl⟩ := h2.selSome i hi
    exact ⟨v, true, by rw [h2.cells, List.getElem?_map, hl]; rfl⟩
  · intro i j c hi hij hj
    rw [h2.cells] at hj
    exact h2.selLast i j _ hi hij (lt (map_get hj).1) (map_get hj).1
  · intro j c hj ha
    rw [h2.cells] at hj
    rw [(map_get hj).2] at ha
    cases ha
  · intro j c hj
    rw [h2.cells] at hj
    exact hv _ (List.mem_of_getElem? (map_get hj).1)

theorem debed_foreign : ∀ (fs : List Field) (i : Nat) (st : State), .foreign ∈ fs → debedFields i fs st = none := by
  intro fs
  induction fs with
  | nil => intro i st h; cases h
  | cons f fs ih =>
    intro i st h
    rcases List.mem_cons.1 h with rfl | h
    · rfl
    · simp only [debedFields]
      cases debedField i f st with
      | none => rfl
      | some st' => exact ih _ _ h

/-! ## What is found in the cells -/

/-- The last attached cell of a kind. -/
theorem last_kind {g : Field → Option α} {cells : List Cell} {i : Nat} {c : Cell} {a : α} (hi : cells[i]? = some c)
    (ha : c.attached = true) (hg : g c.field = some a)
    (hl : ∀ (j : Nat) (c : Cell), i < j → cells[j]? = some c → g c.field = none) :
    (((cells.filter Cell.attached).map Cell.field).filterMap g).getLast? = some a := by
  obtain ⟨hlt, he⟩ := List.getElem?_eq_some_iff.1 hi
  have split : cells = cells.take i ++ c :: cells.drop (i + 1) := by
    rw [← he, List.getElem_cons_drop]
    exact (List.take_append_drop i cells).symm
  have hrest : (((cells.drop (i + 1)).filter Cell.attached).map Cell.field).filterMap g = [] := by
    rw [List.filterMap_eq_nil_iff]
    intro f hf
    obtain ⟨c', hc', rfl⟩ := List.mem_map.1 hf
    obtain ⟨k, hk⟩ := List.mem_iff_getElem?.1 (List.mem_filter.1 hc').1
    rw [List.getElem?_drop] at hk
    exact hl _ _ (by omega) hk
  rw [split, List.filter_append, List.filter_cons_of_pos ha, List.map_append, List.map_cons, List.filterMap_append,
    List.filterMap_cons_some hg, hrest]
  simp

theorem no_kind {g : Field → Option α} {cells : List Cell}
    (hl : ∀ (j : Nat) (c : Cell), cells[j]? = some c → c.attached = true → g c.field = none) :
    ((cells.filter Cell.attached).map Cell.field).filterMap g = [] := by
  rw [List.filterMap_eq_nil_iff]
  intro f hf
  obtain ⟨c', hc', rfl⟩ := List.mem_map.1 hf
  obtain ⟨k, hk⟩ := List.mem_iff_getElem?.1 (List.mem_filter.1 hc').1
  exact hl _ _ hk (List.mem_filter.1 hc').2

/-- The children of the state element. -/
def State.fields (st : State) : List Field := (st.cells.filter Cell.attached).map Cell.field

theorem Inv.recorded {st : State} (h : Inv st) : st.recorded = ((st.fields.filterMap histOf).getLast?).getD [] := by
  unfold State.recorded State.fields
  cases hh : st.history with
  | none =>
    rw [no_kind fun j c hj _ => h.histNone hh j c hj]
    rfl
  | some i =>
    obtain ⟨l, hl⟩ := h.histSome i hh
    rw [last_kind (g := histOf) hl rfl rfl fun j c hij hj => h.histLast i j c hh hij hj]
    simp [hl, Cell.actions]

/-- The selection element is a child of the state element, if there is one. -/
def State.SelAttached (st : State) : Prop := ∀ c, st.selCell = some c → c.attached = true

theorem Inv.selected {st : State} (h : Inv st) (ha : st.SelAttached) :
    st.selected = idsOf ((st.fields.filterMap selOf).getLast?).join := by
  unfold State.selected State.fields
  unfold State.SelAttached at ha
  unfold State.selCell at ha ⊢
  cases hh : st.selection with
  | none =>
    rw [no_kind fun j c hj _ => h.selNone hh j c hj]
    rfl
  | some i =>
    obtain ⟨v, b, hl⟩ := h.selSome i hh
    have hb : b = true := ha ⟨.selection v, b⟩ (by rw [hh]; exact hl)
    rw [last_kind (g := selOf) hl hb rfl fun j c hij hj => h.selLast i j c hh hij hj]
    simp [hl, Cell.ids]

/-! ## What the operations do to the record -/

theorem recorded_getSelections {st : State} (h : Inv st) : (getSelections st).recorded = st.recorded := by
  unfold getSelections
  cases hs : st.selection with
  | some i => rfl
  | none =>
    unfold State.recorded
    simp only
    cases hh : st.history with
    | none => rfl
    | some i =>
      obtain ⟨l, hl⟩ := h.histSome i hh
      simp only [Option.bind_some]
      rw [push_old hl, hl]

theorem recorded_record {st : State} (h : Inv st) (x : Xml) : (record x st).recorded = st.recorded ++ [x] := by
  unfold record getHistory
  cases hs : st.history with
  | some i =>
    obtain ⟨l, hl⟩ := h.histSome i hs
    simp only [hs]
    simp only [State.recorded, State.modify, hs, Option.bind_some]
    rw [modify_same hl, hl]
    rfl
  | none =>
    simp only [State.recorded, State.modify, hs, Option.bind_some]
    rw [modify_same (c := ⟨.history [], true⟩) (by simp)]
    rfl

theorem recorded_modifySel {st : State} (h : Inv st) {i : Nat} (hi : st.selection = some i) (f : Cell → Cell) :
    (st.modify f (some i)).recorded = st.recorded := by
  unfold State.recorded
  simp only [State.modify]
  cases hh : st.history with
  | none => rfl
  | some k =>
    obtain ⟨l, hl⟩ := h.histSome k hh
    obtain ⟨v, b, hv⟩ := h.selSome i hi
    have : k ≠ i := by rintro rfl; rw [hl] at hv; cases hv
    simp only [Option.bind_some]
    rw [modify_other this]

theorem recorded_embed (st : State) : (embedState st).recorded = st.recorded := by
  unfold embedState
  split
  · rfl
  · split <;> rfl

theorem recorded_effect {st : State} (h : Inv st) (ids : List Int) : (effectSelection ids st).recorded = st.recorded := by
  obtain ⟨i, hi⟩ := getSelections_some st
  unfold effectSelection
  simp only [hi]
  split
  · rw [recorded_modifySel h.getSelections hi, recorded_getSelections h]
  · rw [recorded_embed, recorded_modifySel h.getSelections hi, recorded_getSelections h]

theorem recorded_found {st : State} (h : Inv st) (f : Option (List Int)) : (setFound st f).recorded = st.recorded := by
  cases f with
  | none => rfl
  | some l => exact recorded_effect h l

theorem recorded_edits {st : State} (h : Inv st) (sels : List (List Int)) :
    (sels.foldl (fun st l => effectSelection l st) st).recorded = st.recorded := by
  induction sels generalizing st with
  | nil => rfl
  | cons l sels ih => rw [List.foldl_cons, ih (h.effectSelection l), recorded_effect h]

/-- Specification: the element recorded by an operation. -/
def Op.rec? : Op → Option Xml
  | .select r _ | .selectMore r _ | .deselect r | .forget r | .edit r _ => some r
  | .snapshot => none

theorem recorded_step {st : State} (h : Inv st) (op : Op) : (step st op).recorded = st.recorded ++ op.rec?.toList := by
  cases op with
  | select r f => exact (recorded_found (h.record r) f).trans (recorded_record h r)
  | selectMore r f =>
    simp only [step]
    rw [show (Op.selectMore r f).rec?.toList = [r] from rfl, ← recorded_record h r]
    cases (getSelections (record r st)).selected with
    | none => exact recorded_getSelections (h.record r)
    | some old =>
      exact (recorded_found (h.record r).getSelections _).trans (recorded_getSelections (h.record r))
  | deselect r => exact (recorded_effect (h.record r) []).trans (recorded_record h r)
  | forget r => exact (recorded_effect (h.record r) []).trans (recorded_record h r)
  | edit r sels =>
    exact ((recorded_edits (h.record r).getSelections sels).trans (recorded_getSelections (h.record r))).trans
      (recorded_record h r)
  | snapshot => rw [step, recorded_embed]; simp [Op.rec?]

theorem recorded_run {st : State} (h : Inv st) (ops : List Op) :
    (run st ops).recorded = st.recorded ++ ops.filterMap Op.rec? := by
  induction ops generalizing st with
  | nil => simp [run]
  | cons op ops ih =>
    show (run (step st op) ops).recorded = _
    rw [ih (h.step op), recorded_step h]
    cases hr : op.rec? <;> simp [hr]

end Verif.Actions
