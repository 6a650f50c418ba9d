import Verif.Path.Run

/-! # Reading path data without close-path letters ends for every text -/

namespace Verif.Path

open Verif.Parse Verif.Number

variable {p q : Parser} {finite : List Char → Bool} {allow : Bool}

/-- The parser went forward in the same input. -/
def Fwd (p q : Parser) : Prop := q.input = p.input ∧ p.cursor ≤ q.cursor

theorem Fwd.refl (p : Parser) : Fwd p p := ⟨rfl, Nat.le_refl _⟩

theorem Fwd.trans {r : Parser} (h : Fwd p q) (h' : Fwd q r) : Fwd p r :=
  ⟨h'.1.trans h.1, Nat.le_trans h.2 h'.2⟩

theorem skipInternal_fwd {n : Nat} (h : p.skipInternal n = .ok () q) : Fwd p q := by
  simp only [Parser.skipInternal] at h
  split at h
  · cases h
  · split at h
    · cases h; exact ⟨rfl, Nat.le_add_right _ _⟩
    · cases h

theorem skipMatches_fwd {f : Char → Bool} (h : p.skipMatches f = .ok () q) : Fwd p q := by
  simp only [Parser.skipMatches] at h
  split at h
  · cases h
  · exact skipInternal_fwd h

theorem skipChar_fwd {c : Char} (h : p.skipChar c = .ok () q) : Fwd p q := by
  simp only [Parser.skipChar] at h
  split at h
  · cases h
  · exact skipInternal_fwd h

theorem giveFrom_ok {n : Nat} {t : List Char} (h : p.giveFrom n = .ok t q) : q = p ∧ (t ≠ [] → n < p.cursor) := by
  simp only [Parser.giveFrom] at h
  split at h
  · cases h
  · next s hs =>
    cases h
    refine ⟨rfl, fun hne => ?_⟩
    simp only [Parser.sliceFrom] at hs
    split at hs
    · next hle =>
      refine Nat.lt_of_not_le fun hle' => hne ?_
      have hz : min p.cursor (width p.input) - n = 0 := by omega
      rw [hz] at hs
      cases hd : dropBytes n p.input with
      | none => rw [hd] at hs; simp at hs
      | some s => rw [hd] at hs; simp [takeBytes] at hs; exact hs
    · cases hs

theorem current_ok {c : Char} (h : p.current = .ok c q) : q = p ∧ c ∈ p.input := by
  simp only [Parser.current] at h
  split at h
  · cases h
  · cases h
  · next s hs =>
    cases h
    refine ⟨rfl, ?_⟩
    obtain ⟨a, ha, _⟩ := dropBytes_some hs
    rw [ha]; simp

theorem read_fwd {c : Char} (h : p.read = .ok c q) : Fwd p q ∧ p.cursor < q.cursor ∧ c ∈ p.input := by
  simp only [Parser.read, bind_ok] at h
  obtain ⟨c', p', h1, h2⟩ := h
  obtain ⟨rfl, hm⟩ := current_ok h1
  cases h2
  exact ⟨⟨rfl, Nat.le_succ _⟩, Nat.lt_succ_self _, hm⟩

theorem body_fwd (h : exponent.body p = .ok () q) : Fwd p q := by
  simp only [exponent.body, bind_ok] at h
  obtain ⟨_, a, h1, _, b, h2, _, c, h3, _, d, h4, h5⟩ := h
  split at h5
  · cases h5
  · cases h5
    exact (skipMatches_fwd h1).trans ((skipMatches_fwd h2).trans ((skipChar_fwd h3).trans (skipMatches_fwd h4)))

theorem current_err (h : p.current = .err q) : q = p := by
  simp only [Parser.current] at h
  split at h <;> cases h
  rfl

theorem advance_fwd (p : Parser) : Fwd p p.advance := ⟨rfl, Nat.le_succ _⟩

theorem exponent_fwd (h : exponent p = .ok () q) : Fwd p q := by
  simp only [exponent] at h
  split at h
  · cases h
  · next hc => cases h; rw [current_err hc]; exact .refl _
  · next c p' hc =>
    obtain ⟨rfl, _⟩ := current_ok hc
    split at h
    · split at h
      · cases h
      · next d q' hd =>
        obtain ⟨rfl, _⟩ := current_ok hd
        split at h
        · have hle : 1 ≤ p'.advance.cursor := Nat.le_add_left 1 _
          rw [Parser.rewind, if_pos hle] at h
          cases h
          exact ⟨rfl, by simp [Parser.advance]⟩
        · exact (advance_fwd _).trans (body_fwd h)
      · exact (advance_fwd _).trans (body_fwd h)
    · cases h; exact .refl _

theorem parseF64_fwd {t : List Char} (h : parseF64 finite p = .ok t q) : Fwd p q ∧ p.cursor < q.cursor := by
  simp only [parseF64, bind_ok] at h
  obtain ⟨_, a, h1, _, b, h2, _, c, h3, _, d, h4, _, e, h5, _, f, h6, t', g, h7, h8⟩ := h
  split at h8
  · next ht =>
    cases h8
    simp only [Bool.and_eq_true] at ht
    obtain ⟨rfl, hlt⟩ := giveFrom_ok h7
    have hne : t ≠ [] := by rintro rfl; simp [rustFloat, accept] at ht
    have f1 := skipMatches_fwd h1
    have f2 := (skipMatches_fwd h2).trans ((skipMatches_fwd h3).trans ((skipChar_fwd h4).trans
      ((skipMatches_fwd h5).trans (exponent_fwd h6))))
    have := hlt hne
    exact ⟨f1.trans f2, Nat.lt_of_le_of_lt f1.2 this⟩
  · cases h8

theorem skipSep_fwd (h : skipSep p = .ok () q) : Fwd p q := by
  simp only [skipSep, bind_ok] at h
  obtain ⟨_, a, h1, _, b, h2, h3⟩ := h
  exact (skipMatches_fwd h1).trans ((skipChar_fwd h2).trans (skipMatches_fwd h3))

theorem parseArg_fwd {f : Bool} {t : List Char} (h : parseArg finite f p = .ok t q) : Fwd p q ∧ p.cursor < q.cursor := by
  cases f with
  | false =>
    simp only [parseArg, Bool.false_eq_true, if_false, parseNumber, bind_ok] at h
    obtain ⟨t', a, h1, _, b, h2, h3⟩ := h
    cases h3
    obtain ⟨f1, hlt⟩ := parseF64_fwd h1
    have f2 := skipSep_fwd h2
    exact ⟨f1.trans f2, Nat.lt_of_lt_of_le hlt f2.2⟩
  | true =>
    simp only [parseArg, if_true, parseFlag, bind_ok] at h
    obtain ⟨c, a, h1, _, b, h2, h3⟩ := h
    split at h3
    · cases h3
      obtain ⟨f1, hlt, _⟩ := read_fwd h1
      have f2 := skipSep_fwd h2
      exact ⟨f1.trans f2, Nat.lt_of_lt_of_le hlt f2.2⟩
    · cases h3

theorem parseArgs_fwd (fs : List Bool) : ∀ {p q : Parser} {ts : List (List Char)}, parseArgs finite fs p = .ok ts q →
    Fwd p q ∧ (fs ≠ [] → p.cursor < q.cursor) := by
  induction fs with
  | nil => intro p q ts h; simp only [parseArgs] at h; cases h; exact ⟨.refl _, fun h => absurd rfl h⟩
  | cons f fs ih =>
    intro p q ts h
    simp only [parseArgs, bind_ok] at h
    obtain ⟨t, a, h1, ts', b, h2, h3⟩ := h
    cases h3
    obtain ⟨f1, hlt⟩ := parseArg_fwd h1
    obtain ⟨f2, _⟩ := ih h2
    exact ⟨f1.trans f2, fun _ => Nat.lt_of_lt_of_le hlt f2.2⟩

/-- The kind of a command, whether or not its letter is left out. -/
def Data.kind {N : Type} : Data N → Kind
  | .plain k _ => k
  | .implicit d => d.kind

def ID.kind : ID → Kind
  | .plain k => k
  | .implicit i => i.kind

theorem parseData_fwd (i : ID) : ∀ {p q : Parser} {d : Data (List Char)}, parseData finite i p = .ok d q →
    Fwd p q ∧ d.kind = i.kind ∧ (i.kind ≠ .closePath → p.cursor < q.cursor) := by
  induction i with
  | plain k =>
    intro p q d h
    simp only [parseData, bind_ok] at h
    obtain ⟨a, r, h1, h2⟩ := h
    cases h2
    obtain ⟨f1, hlt⟩ := parseArgs_fwd _ h1
    exact ⟨f1, rfl, fun hk => hlt (fun h => hk (shape_nil h))⟩
  | implicit i ih =>
    intro p q d h
    simp only [parseData, bind_ok] at h
    obtain ⟨a, r, h1, h2⟩ := h
    cases h2
    have := ih h1
    exact this

theorem tryParse_ok {α : Type} {f : Parser → Res α} {a : α} (h : p.tryParse f = .ok a q) : f p = .ok a q := by
  simp only [Parser.tryParse] at h
  split at h
  · next h' => cases h; exact h'
  · cases h
  · cases h

theorem tryParse_err {α : Type} {f : Parser → Res α} (h : p.tryParse f = .err q) : ∃ r, f p = .err r ∧ q = { r with cursor := p.cursor } := by
  simp only [Parser.tryParse] at h
  split at h
  · cases h
  · next h' => cases h; exact ⟨_, h', rfl⟩
  · cases h

theorem failed_ne {α : Type} {a : α} (h : (failed p : Res α) = .ok a q) : False := by
  simp only [failed] at h
  split at h <;> cases h

theorem finish_fwd {i : Option ID} {d : Data (List Char)} (h : finishCommand finite i p = .ok d q) :
    ∃ j, i = some j ∧ Fwd p q ∧ d.kind = j.kind ∧ (j.kind ≠ .closePath → p.cursor < q.cursor) := by
  cases i with
  | none => exact (failed_ne h).elim
  | some j =>
    simp only [finishCommand] at h
    split at h
    · next h' =>
      cases h
      exact ⟨j, rfl, parseData_fwd j (tryParse_ok h')⟩
    · exact (failed_ne h).elim
    · cases h

theorem adjust_kind {last : Option ID} {i j : ID} (h : adjust last i = some j) : j.kind = i.kind := by
  cases last with
  | none => simp only [adjust] at h; split at h <;> cases h; rfl
  | some l =>
    simp only [adjust] at h
    split at h <;> cases h <;> rfl

theorem cont_kind (i : ID) (h : i.cont = .closePath) : i.kind = .closePath := by
  induction i with
  | plain k => cases k <;> simp [ID.cont, Kind.nextImplicit] at h; rfl
  | implicit i ih => exact ih h

theorem kind_id {N : Type} (d : Data N) : d.id.kind = d.kind := by
  induction d with
  | plain k a => rfl
  | implicit d ih => exact ih

theorem parseID_ok {i : ID} (h : parseID p = .ok i q) : ∃ c k, c ∈ p.input ∧ ofLetter c = some k ∧ i = .plain k ∧ Fwd p q ∧
    p.cursor < q.cursor := by
  simp only [parseID, bind_ok] at h
  obtain ⟨c, r, h1, h2⟩ := h
  obtain ⟨f1, hlt, hm⟩ := read_fwd h1
  simp only [idOf] at h2
  split at h2
  · next k hk => cases h2; exact ⟨c, k, hm, hk, rfl, f1, hlt⟩
  · cases h2

theorem current_input (h : p.current = .err q) : q.input = p.input := by rw [current_err h]

theorem parseID_err (h : parseID p = .err q) : q.input = p.input := by
  simp only [parseID, Parser.read, Res.bind] at h
  cases hc : p.current with
  | panic => rw [hc] at h; cases h
  | err r => rw [hc] at h; simp at h; rw [← h]; exact current_input hc
  | ok c r =>
    obtain ⟨rfl, _⟩ := current_ok hc
    rw [hc] at h
    simp only [idOf] at h
    split at h
    · cases h
    · cases h; rfl

/-- Each round moves forward when there is no close-path. -/
theorem iteration_fwd {list : List (Data (List Char))} {d : Data (List Char)} (hl : ∀ d ∈ list, d.kind ≠ .closePath)
    (hz : 'z' ∉ p.input ∧ 'Z' ∉ p.input) (h : iteration finite allow list p = .ok d q) :
    Fwd p q ∧ d.kind ≠ .closePath ∧ p.cursor < q.cursor := by
  simp only [iteration, bind_ok] at h
  obtain ⟨_, p1, h1, h2⟩ := h
  have f1 : Fwd p p1 := by
    simp only [separators] at h1
    split at h1
    · exact skipMatches_fwd h1
    · exact skipSep_fwd h1
  simp only [command] at h2
  split at h2
  · next i p2 h3 =>
    obtain ⟨c, k, hm, hk, rfl, f2, hlt⟩ := parseID_ok (tryParse_ok h3)
    obtain ⟨j, hj, f3, hd, _⟩ := finish_fwd h2
    have hjk := adjust_kind hj
    refine ⟨f1.trans (f2.trans f3), ?_, Nat.lt_of_le_of_lt f1.2 (Nat.lt_of_lt_of_le hlt f3.2)⟩
    rw [hd, hjk]
    rintro rfl
    have hcz : c = 'z' ∨ c = 'Z' := by
      have : ∀ c ∈ "MmLlHhVvCcSsQqTtAaZz".toList, ofLetter c = some .closePath → c = 'z' ∨ c = 'Z' := by decide +kernel
      exact this c (letter_mem hk) hk
    rw [f1.1] at hm
    rcases hcz with rfl | rfl
    · exact hz.1 hm
    · exact hz.2 hm
  · next p2 h3 =>
    obtain ⟨r, hr, e⟩ := tryParse_err h3
    have f2 : Fwd p1 p2 := ⟨by rw [e]; show r.input = p1.input; exact parseID_err hr, by rw [e]; exact Nat.le_refl _⟩
    split at h2
    · exact (failed_ne h2).elim
    · next i hi =>
      obtain ⟨j, hj, f3, hd, hlt⟩ := finish_fwd h2
      have hjk := adjust_kind hj
      have hik : i.kind ≠ .closePath := by
        intro hc
        rcases list.eq_nil_or_concat with rfl | ⟨l, last, rfl⟩
        · simp only [List.getLast?_nil, Option.map_none, implied] at hi
          split at hi <;> cases hi
          simp [ID.kind] at hc
        · have hi' : implied allow (some last.id) = some i := by simpa using hi
          simp only [implied] at hi'
          cases hi'
          rw [nextImplicit_eq] at hc
          simp only [ID.kind] at hc
          refine hl last (by simp) ?_
          rw [← kind_id]
          exact cont_kind _ hc
      rw [← hjk] at hik
      exact ⟨f1.trans (f2.trans f3), by rw [hd]; exact hik, Nat.lt_of_le_of_lt (Nat.le_trans f1.2 f2.2) (hlt hik)⟩
  · cases h2

theorem halts_fwd (m : Nat) : ∀ {list : List (Data (List Char))} {p : Parser}, width p.input - p.cursor ≤ m →
    (∀ d ∈ list, d.kind ≠ .closePath) → ('z' ∉ p.input ∧ 'Z' ∉ p.input) →
    ∃ fuel r, parseExtend finite allow fuel list p = some r := by
  induction m with
  | zero =>
    intro list p hm hl hz
    refine ⟨1, ?_⟩
    rw [parseExtend]
    by_cases h1 : p.len = none
    · exact ⟨_, if_pos h1⟩
    · rw [if_neg h1]
      have : p.len = some 0 := by
        simp only [Parser.len] at h1 ⊢
        split
        · exact congrArg some (by omega)
        · next hle => rw [if_neg hle] at h1; exact absurd rfl h1
      exact ⟨_, if_pos this⟩
  | succ m ih =>
    intro list p hm hl hz
    by_cases h1 : p.len = none
    · exact ⟨1, _, by rw [parseExtend, if_pos h1]⟩
    by_cases h2 : p.len = some 0
    · exact ⟨1, _, by rw [parseExtend, if_neg h1, if_pos h2]⟩
    cases hi : iteration finite allow list p with
    | err q => exact ⟨1, _, by rw [parseExtend, if_neg h1, if_neg h2, hi]; rfl⟩
    | panic => exact ⟨1, _, by rw [parseExtend, if_neg h1, if_neg h2, hi]; rfl⟩
    | ok d q =>
      obtain ⟨f, hk, hlt⟩ := iteration_fwd hl hz hi
      have hc : p.cursor < width p.input := by
        simp only [Parser.len] at h1 h2
        split at h1
        · next hle => rw [if_pos hle] at h2; simp at h2; omega
        · exact absurd rfl h1
      obtain ⟨fuel, r, hr⟩ := ih (list := list ++ [d]) (p := q) (by rw [f.1]; omega)
        (fun d' hd' => by
          simp at hd'
          rcases hd' with h | rfl
          · exact hl _ h
          · exact hk) (by rw [f.1]; exact hz)
      exact ⟨fuel + 1, r, by rw [parseExtend, if_neg h1, if_neg h2, hi]; exact hr⟩

end Verif.Path
