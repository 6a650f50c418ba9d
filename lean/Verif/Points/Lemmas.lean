import Verif.Path.FormatProps
import Verif.Path.Total
import Verif.Points.Model

/-! # The attribute `points`: lemmas -/

namespace Verif.Points

open Verif.Parse Verif.Path

variable {finite : List Char → Bool}

theorem ryu_noM {n : Num} (hv : n.Valid) : 'M' ∉ ryu n := by
  have hd : ∀ {l : List Char}, (∀ c ∈ l, c ∈ n.digits) → 'M' ∉ l := by
    intro l hl hm
    exact absurd (hv.1 _ (hl _ hm)) (by decide)
  have h0 := hd (l := n.digits) (fun _ h => h)
  have h1 : ∀ k, 'M' ∉ n.digits.take k := fun k => hd fun _ h => List.mem_of_mem_take h
  have h2 : ∀ k, 'M' ∉ n.digits.drop k := fun k => hd fun _ h => List.mem_of_mem_drop h
  have h3 : ∀ e, 'M' ∉ expText e := by
    intro e h
    rcases expText_chars e _ h with h | h <;> revert h <;> decide
  have h4 : 'M' ∉ signText n.neg := by cases n.neg <;> decide
  have h5 : ∀ k, 'M' ∉ List.replicate k '0' := by
    intro k h
    have := List.eq_of_mem_replicate h
    revert this; decide
  unfold ryu
  rw [List.mem_append, not_or]
  refine ⟨h4, ?_⟩
  split
  · decide
  split
  · simp [h0, h5]
  split
  · simp [h1, h2]
  split
  · simp [h0, h5]
  split
  · simp [h0, h3]
  · have := h1 1; have := h2 1
    simp only [List.mem_append, List.mem_cons, not_or]
    exact ⟨⟨h1 1, by decide, h2 1⟩, by decide, h3 _⟩

theorem stripSuffix_mem {c x : Char} {l : List Char} (h : x ∈ stripSuffix c l) : x ∈ l := by
  unfold stripSuffix at h
  split at h
  · exact (List.dropLast_sublist l).subset h
  · exact h

theorem pieces_flat (raw : List Char) : (pieces raw).flatten = dropLeadingZero raw := by
  unfold pieces dropLeadingZero
  split
  · simp
  split <;> simp

theorem numberPieces_flat (n : Num) : (numberPieces n).flatten = short n := by
  unfold numberPieces short shorten pointPieces shortenPoint
  generalize (if (ryu n).contains '.' then stripSuffix '0' (ryu n) else ryu n) = raw
  split
  · rfl
  · exact pieces_flat _

/-- A piece without the letter is written as it is. -/
theorem strip_noM {l : List Char} (h : 'M' ∉ l) : strip l = l := by
  cases l with
  | nil => rfl
  | cons c l =>
    have : c ≠ 'M' := fun e => h (by simp [e])
    simp [strip, this]

theorem map_strip {ps : List (List Char)} (h : ∀ p ∈ ps, 'M' ∉ p) : (ps.map strip).flatten = ps.flatten := by
  have : ps.map strip = ps.map id := List.map_congr_left fun p hp => strip_noM (h p hp)
  rw [this, List.map_id]

theorem numberPieces_noM {n : Num} (hv : n.Valid) : ∀ p ∈ numberPieces n, 'M' ∉ p := by
  have hr : ∀ x, x ∈ (if (ryu n).contains '.' then stripSuffix '0' (ryu n) else ryu n) → x ∈ ryu n := by
    intro x hx
    split at hx
    · exact stripSuffix_mem hx
    · exact hx
  have hno : 'M' ∉ stripSuffix '.' (if (ryu n).contains '.' then stripSuffix '0' (ryu n) else ryu n) :=
    fun h => ryu_noM hv (hr _ (stripSuffix_mem h))
  unfold numberPieces pointPieces
  revert hno
  generalize (if (ryu n).contains '.' then stripSuffix '0' (ryu n) else ryu n) = raw
  intro hno
  split
  · decide
  · unfold pieces
    split
    · simp only [List.mem_singleton, forall_eq]
      exact fun h => hno (List.mem_of_mem_drop h)
    split
    · simp only [List.mem_cons, List.not_mem_nil, or_false, forall_eq_or_imp, forall_eq]
      exact ⟨by decide, fun h => hno (List.mem_of_mem_drop h)⟩
    · simpa using hno

theorem spacePiece_flat (b : Bool) : (spacePiece b).flatten = spaceText b := by cases b <;> rfl

theorem spacePiece_noM (b : Bool) : ∀ p ∈ spacePiece b, 'M' ∉ p := by cases b <;> decide

theorem argPiecesFrom_spec (a : List Num) : ∀ (p : Num), (argPiecesFrom p a).flatten = argsFrom p a ∧
    ((∀ n ∈ a, n.Valid) → ∀ x ∈ argPiecesFrom p a, 'M' ∉ x) := by
  induction a with
  | nil => intro p; exact ⟨rfl, fun _ x hx => by simp [argPiecesFrom] at hx⟩
  | cons c a ih =>
    intro p
    refine ⟨?_, ?_⟩
    · simp [argPiecesFrom, argsFrom, spacePiece_flat, numberPieces_flat, (ih c).1]
    · intro hv x hx
      simp only [argPiecesFrom, List.mem_append] at hx
      rcases hx with (hx | hx) | hx
      · exact spacePiece_noM _ x hx
      · exact numberPieces_noM (hv c (by simp)) x hx
      · exact (ih c).2 (fun n hn => hv n (by simp [hn])) x hx

theorem argPieces_spec (a : List Num) : (argPieces a).flatten = argsText a ∧
    ((∀ n ∈ a, n.Valid) → ∀ x ∈ argPieces a, 'M' ∉ x) := by
  cases a with
  | nil => exact ⟨rfl, fun _ x hx => by simp [argPieces] at hx⟩
  | cons c a =>
    refine ⟨by simp [argPieces, argsText, numberPieces_flat, (argPiecesFrom_spec a c).1], ?_⟩
    intro hv x hx
    simp only [argPieces, List.mem_append] at hx
    rcases hx with hx | hx
    · exact numberPieces_noM (hv c (by simp)) x hx
    · exact (argPiecesFrom_spec a c).2 (fun n hn => hv n (by simp [hn])) x hx

/-- Arguments are written as in a path. -/
theorem args_written {a : List Num} (hv : ∀ n ∈ a, n.Valid) : ((argPieces a).map strip).flatten = argsText a := by
  rw [map_strip ((argPieces_spec a).2 hv), (argPieces_spec a).1]

theorem letter_strip (c : Char) : strip [c] = if c = 'M' then [] else [c] := by
  simp [strip]

/-- The commands after the first, of which none is a move with a letter. -/
theorem from_written {ds : List (Data Num)} : ∀ {prev : List Num}, prev ≠ [] → (∀ d ∈ ds, d.args ≠ [] ∧ d.isImplicit = true ∧ ∀ n ∈ d.args, n.Valid) →
    ((piecesFrom prev ds).map strip).flatten = formatFrom prev ds := by
  induction ds with
  | nil => intro _ _ _; rfl
  | cons d ds ih =>
    intro prev hp h
    obtain ⟨h1, h2, h3⟩ := h d (by simp)
    have e1 : d.args.isEmpty = false := by simpa using h1
    have e2 : prev.isEmpty = false := by simpa using hp
    simp only [piecesFrom, formatFrom, leaderPieces, leader, e1, e2, h2, List.map_append, List.flatten_append, args_written h3,
      ih h1 (fun d' hd' => h d' (by simp [hd'])), Bool.false_eq_true, if_false, if_true]
    rw [map_strip (spacePiece_noM _), spacePiece_flat]

/-! ## Reading -/

theorem collect_extend (fuel : Nat) : ∀ (list L : List (Data (List Char))) (p q : Parser),
    collect finite fuel list p = some (.ok ⟨L, true⟩ q) ↔ parseExtend finite true fuel list p = some (.ok L q) := by
  induction fuel with
  | zero => intro list L p q; simp [collect, parseExtend]
  | succ n ih =>
    intro list L p q
    rw [collect, parseExtend]
    split
    · simp
    split
    · simp
    cases iteration finite true list p with
    | ok d q' => exact ih _ _ _ _
    | err q' => simp [continue']
    | panic => simp [continue']

/-- The whole text is read exactly if it can be read command by command. -/
theorem whole_run {text : List Char} (hn : NoEnd text) (fuel : Nat) (L : List (Data (List Char))) (q : Parser) :
    parseString finite fuel text = some (.ok ⟨L, true⟩ q) ↔
      L.length < fuel ∧ Run finite true none (text.dropWhile isWhitespace) L ∧ q = ⟨text, width text⟩ := by
  have h : At (Parser.new text) [] text := ⟨rfl, rfl⟩
  obtain ⟨p1, e1, m1, a1, h1⟩ := At.ws h
  have hn1 := hn.dropWhile (f := isWhitespace)
  simp only [parseString, e1, continue']
  have key := extend_iff (finite := finite) (allow := true) fuel (list := []) h1 hn1
  constructor
  · intro hp
    cases he : collect finite fuel [] p1 with
    | none => rw [he] at hp; simp at hp
    | some r =>
      rw [he] at hp
      simp only [Option.bind_some] at hp
      cases r with
      | err q => simp at hp
      | panic => simp at hp
      | ok v q' =>
        obtain ⟨L', b⟩ := v
        have hb : L' = L ∧ b = true := by
          dsimp only at hp
          cases hw : q'.skipWhitespace with
          | err q => rw [hw] at hp; simp at hp
          | panic => rw [hw] at hp; simp at hp
          | ok u q2 =>
            rw [hw] at hp
            dsimp only at hp
            cases hd : q2.expectDone with
            | err q => rw [hd] at hp; simp at hp
            | panic => rw [hd] at hp; simp at hp
            | ok u q3 =>
              rw [hd] at hp
              simp at hp
              exact hp.1
        obtain ⟨rfl, rfl⟩ := hb
        rw [collect_extend] at he
        obtain ⟨ds, hlen, hr, rfl, hm⟩ := (key L' q').mp he
        have hq' : q' = ⟨text, width text⟩ := moved_end m1 hm
        subst hq'
        have hat : At ⟨text, width text⟩ text [] := ⟨by simp, rfl⟩
        obtain ⟨p2, e2, m2⟩ := At.ws hat
        have : p2 = ⟨text, width text⟩ := moved_end rfl m2
        subst this
        simp only [e2, Parser.expectDone, Nat.lt_irrefl, if_false, Option.some.injEq, Res.ok.injEq] at hp
        exact ⟨hlen, hr, hp.2.symm⟩
  · rintro ⟨hlen, hr, rfl⟩
    have he := (collect_extend fuel [] L p1 _).mpr ((key L ⟨text, width text⟩).mpr ⟨L, hlen, hr, rfl, m1.symm, text, by simp, rfl⟩)
    have hat : At ⟨text, width text⟩ text [] := ⟨by simp, rfl⟩
    obtain ⟨p2, e2, m2⟩ := At.ws hat
    have : p2 = ⟨text, width text⟩ := moved_end rfl m2
    subst this
    simp only [he, Option.bind_some, e2, Parser.expectDone, Nat.lt_irrefl, if_false]

theorem step_allow {o : Option Kind} {l z : List Char} {d : Data (List Char)} (h : Step finite false o l d z) :
    Step finite true o l d z := by
  cases h with
  | first e hk hm hz => exact .first e hk hm hz
  | start h _ _ => cases h
  | letter e hk hn hz => exact .letter e hk hn hz
  | same e hk hz => exact .same e hk hz
  | cont hn hz => exact .cont hn hz

theorem run_allow {o : Option Kind} {l : List Char} {ds : List (Data (List Char))} (h : Run finite false o l ds) :
    Run finite true o l ds := by
  induction h with
  | done o => exact .done o
  | step hne hs _ ih => exact .step hne (step_allow hs) ih

/-- Commands read one after the other, and what is left. -/
inductive Steps (finite : List Char → Bool) : Option Kind → List Char → List (Data (List Char)) → Option Kind → List Char → Prop
  | done (o : Option Kind) (l : List Char) : Steps finite o l [] o l
  | step {o o' : Option Kind} {l z r : List Char} {d : Data (List Char)} {ds : List (Data (List Char))} : l ≠ [] →
      Step finite true o l d z → Steps finite (some d.id.cont) z ds o' r → Steps finite o l (d :: ds) o' r

theorem run_steps {o : Option Kind} {l : List Char} {ds : List (Data (List Char))} (h : Run finite true o l ds) :
    ∃ o', Steps finite o l ds o' [] := by
  induction h with
  | done o => exact ⟨o, .done o []⟩
  | step hne hs _ ih => obtain ⟨o', h⟩ := ih; exact ⟨o', .step hne hs h⟩

/-- The commands before an error are those that can be read, and no further one can be. -/
theorem collect_steps (fuel : Nat) : ∀ {list L : List (Data (List Char))} {p q : Parser} {pre rest : List Char}, At p pre rest → NoEnd rest →
    collect finite fuel list p = some (.ok ⟨L, false⟩ q) →
    ∃ ds o z, L = list ++ ds ∧ Steps finite (contOf list) rest ds o z ∧ z ≠ [] ∧ ∀ d z', ¬ Step finite true o z d z' := by
  induction fuel with
  | zero => intro list L p q pre rest _ _ h; simp [collect] at h
  | succ n ih =>
    intro list L p q pre rest h hn hc
    have hl := len_cases h
    rw [collect, if_neg hl.1] at hc
    by_cases h0 : rest = []
    · rw [if_pos (hl.2.mpr h0)] at hc
      simp at hc
    · rw [if_neg (fun h1 => h0 (hl.2.mp h1))] at hc
      cases hi : iteration finite true list p with
      | panic => rw [hi] at hc; simp at hc
      | err q1 =>
        rw [hi] at hc
        simp at hc
        refine ⟨[], contOf list, rest, by simp [hc.1], .done _ _, h0, fun d z' hs => ?_⟩
        obtain ⟨a, ha, _⟩ := hs.suffix
        have h' := h
        rw [ha] at h'
        have := (iteration_iff (allow := true) list h hn d ⟨p.input, p.cursor + width a⟩).mpr ⟨z', hs, rfl, _, h'.moved⟩
        rw [hi] at this
        cases this
      | ok d q1 =>
        rw [hi] at hc
        dsimp only at hc
        obtain ⟨z, hs, hm⟩ := (iteration_iff list h hn d q1).mp hi
        obtain ⟨a, ha⟩ := hm.2
        obtain ⟨ds, o, z', rfl, hr, hz⟩ := ih ha (hs.noEnd hn) hc
        refine ⟨d :: ds, o, z', by simp, .step h0 hs ?_, hz⟩
        simpa [contOf] using hr

/-- A value comes from the loop. -/
theorem parse_collect {text : List Char} {fuel : Nat} {v : Value} {q : Parser} (h : parseString finite fuel text = some (.ok v q)) :
    ∃ p1 pre q', At p1 pre (text.dropWhile isWhitespace) ∧ collect finite fuel [] p1 = some (.ok v q') := by
  have h0 : At (Parser.new text) [] text := ⟨rfl, rfl⟩
  obtain ⟨p1, e1, m1, a1, h1⟩ := At.ws h0
  simp only [parseString, e1, continue'] at h
  cases he : collect finite fuel [] p1 with
  | none => rw [he] at h; simp at h
  | some r =>
    rw [he] at h
    simp only [Option.bind_some] at h
    cases r with
    | err q => simp at h
    | panic => simp at h
    | ok v' q' =>
      refine ⟨p1, a1, q', h1, ?_⟩
      dsimp only at h
      cases hw : q'.skipWhitespace with
      | err q => rw [hw] at h; simp at h
      | panic => rw [hw] at h; simp at h
      | ok u q2 =>
        rw [hw] at h
        dsimp only at h
        cases hd : q2.expectDone with
        | err q => rw [hd] at h; simp at h
        | panic => rw [hd] at h; simp at h
        | ok u q3 =>
          rw [hd] at h
          simp at h
          rw [he, h.1]

/-! ## No errors -/

/-- The cursor stands at the end. -/
def AtEnd (p : Parser) : Prop := p.cursor = width p.input

theorem skipInternal_err {p q : Parser} {n : Nat} : p.skipInternal n ≠ .err q := by
  unfold Parser.skipInternal
  split
  · simp
  · split <;> simp

theorem skipMatches_err {p q : Parser} {f : Char → Bool} : p.skipMatches f ≠ .err q := by
  unfold Parser.skipMatches
  split
  · simp
  · exact skipInternal_err

theorem skipChar_err {p q : Parser} {c : Char} : p.skipChar c ≠ .err q := by
  unfold Parser.skipChar
  split
  · simp
  · exact skipInternal_err

theorem bind_err {α β : Type} {r : Res α} {f : α → Parser → Res β} {q : Parser} (h : r.bind f = .err q) :
    r = .err q ∨ ∃ a p, r = .ok a p ∧ f a p = .err q := by
  cases r with
  | ok a p => exact .inr ⟨a, p, rfl, h⟩
  | err p => simp [Res.bind] at h; exact .inl (by rw [h])
  | panic => simp [Res.bind] at h

theorem separators_err {p q : Parser} {b : Bool} : separators b p ≠ .err q := by
  unfold separators
  split
  · exact skipMatches_err
  · intro h
    unfold skipSep at h
    rcases bind_err h with h | ⟨_, _, _, h⟩
    · exact skipMatches_err h
    rcases bind_err h with h | ⟨_, _, _, h⟩
    · exact skipChar_err h
    · exact skipMatches_err h

theorem failed_end {α : Type} {p q : Parser} (h : (failed p : Res α) = .err q) : AtEnd q := by
  unfold failed at h
  split at h
  · cases h
  · cases h; rfl

theorem finish_end {i : Option ID} {p q : Parser} (h : finishCommand finite i p = .err q) : AtEnd q := by
  unfold finishCommand at h
  split at h
  · exact failed_end h
  · split at h
    · cases h
    · exact failed_end h
    · cases h

theorem iteration_end {list : List (Data (List Char))} {p q : Parser} (h : iteration finite true list p = .err q) : AtEnd q := by
  unfold iteration at h
  rcases bind_err h with h | ⟨_, p1, _, h⟩
  · exact absurd h separators_err
  · unfold command at h
    split at h
    · exact finish_end h
    · split at h
      · exact failed_end h
      · exact finish_end h
    · cases h

theorem collect_end (fuel : Nat) : ∀ {list : List (Data (List Char))} {p : Parser} {r : Res Value}, collect finite fuel list p = some r →
    r = .panic ∨ ∃ v q, r = .ok v q ∧ AtEnd q := by
  induction fuel with
  | zero => intro list p r h; simp [collect] at h
  | succ n ih =>
    intro list p r h
    rw [collect] at h
    split at h
    · cases h; exact .inl rfl
    · split at h
      · next h1 =>
        cases h
        refine .inr ⟨_, _, rfl, ?_⟩
        unfold Parser.len at h1
        split at h1
        · simp at h1; unfold AtEnd; omega
        · cases h1
      · split at h
        · exact ih h
        · next hi => cases h; exact .inr ⟨_, _, rfl, iteration_end hi⟩
        · cases h; exact .inl rfl

theorem parse_never {fuel : Nat} {text : List Char} {q : Parser} : parseString finite fuel text ≠ some (.err q) := by
  intro h
  have h0 : At (Parser.new text) [] text := ⟨rfl, rfl⟩
  obtain ⟨p1, e1, m1, a1, h1⟩ := At.ws h0
  simp only [parseString, e1, continue'] at h
  cases he : collect finite fuel [] p1 with
  | none => rw [he] at h; simp at h
  | some r =>
    rw [he] at h
    rcases collect_end fuel he with rfl | ⟨v, q', rfl, hq⟩
    · simp at h
    · have hat : At q' q'.input [] := ⟨by simp, hq⟩
      obtain ⟨p2, e2, m2, a2, h2⟩ := At.ws hat
      simp only [Option.bind_some, e2, Parser.expectDone] at h
      have h3 : p2.cursor = width p2.input := by rw [h2.2, h2.1]; simp
      rw [if_neg (by omega)] at h
      simp at h

theorem collect_none (fuel : Nat) : ∀ (list : List (Data (List Char))) (p : Parser),
    collect finite fuel list p = none ↔ parseExtend finite true fuel list p = none := by
  induction fuel with
  | zero => intro list p; simp [collect, parseExtend]
  | succ n ih =>
    intro list p
    rw [collect, parseExtend]
    split
    · simp
    split
    · simp
    cases iteration finite true list p with
    | ok d q' => exact ih _ _
    | err q' => simp [continue']
    | panic => simp [continue']

theorem parse_none {text : List Char} {p1 : Parser} {fuel : Nat} (e1 : (Parser.new text).skipWhitespace = .ok () p1) :
    parseString finite fuel text = none ↔ parseExtend finite true fuel [] p1 = none := by
  rw [← collect_none]
  simp only [parseString, e1, continue']
  cases collect finite fuel [] p1 with
  | none => simp
  | some r =>
    cases r with
    | err q => simp
    | panic => simp
    | ok v q =>
      simp only [Option.bind_some, reduceCtorEq, iff_false]
      cases q.skipWhitespace with
      | err q => simp
      | panic => simp
      | ok u q2 => cases hd : q2.expectDone <;> simp [hd]

end Verif.Points
