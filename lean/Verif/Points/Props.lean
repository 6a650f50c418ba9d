import Verif.Points.Lemmas

/-!
# The attribute `points`

Sentences of the specification: `Pairs` is the grammar of SVG for lists of points, and `path` the path that a list of points
stands for: a move to the first, lines to the others.
-/

namespace Verif.Points

open Verif.Parse Verif.Path Verif.Number

variable {finite : List Char → Bool}

/-- A list of points in SVG: two numbers for each, with white space and at most one comma between numbers where they would
run together otherwise. -/
inductive Pairs (finite : List Char → Bool) : List Char → List (List Char × List Char) → Prop
  | nil : Pairs finite [] []
  | cons {x y m r : List Char} {ps : List (List Char × List Char)} : Args finite Sep [false, false] [x, y] m r → Pairs finite r ps →
      Pairs finite m ((x, y) :: ps)

/-- The path of a list of points. -/
def path {α : Type} : List (α × α) → List (Data α)
  | [] => []
  | p :: ps => .plain .moveTo [p.1, p.2] :: ps.map fun q => .implicit (.plain .lineTo [q.1, q.2])

theorem pairs_svg {r : List Char} {ps : List (List Char × List Char)} (h : Pairs finite r ps) :
    ∀ {n : Kind}, continues n = some .lineTo → Svg finite n r (ps.map fun q => .implicit (.plain .lineTo [q.1, q.2])) := by
  induction h with
  | nil => intro n _; exact .nil n
  | cons ha _ ih => intro n hn; exact .again (c := 'L') hn (by decide +kernel) ha (ih rfl)

theorem read_start {x y m r : List Char} {ds : List (Data (List Char))} (ha : Args finite Sep [false, false] [x, y] m r)
    (hs : Svg finite .moveTo r ds) : Run finite true none m (.plain .moveTo [x, y] :: ds) := by
  have hrd := args_read ha (svg_clean hs)
  have hcl := args_clean ha (svg_clean hs)
  have hw : m.dropWhile isWhitespace = m := blank_drop (a := []) (by simp [Blank]) (clean_ends hcl)
  have hno : NoLetter m ∧ m ≠ [] := by
    cases ha with
    | num h1 _ _ _ =>
      rw [List.append_assoc]
      exact ⟨number_noLetter h1.1.1 _, by simp [isNumber_ne h1.1.1]⟩
  exact .step hno.2 (.start rfl (by rw [hw]; exact hno.1) (by rw [hw]; exact hrd)) (run_allow (svg_run hs))

theorem noEnd_blank {w t : List Char} (hw : Blank w) (h : NoEnd t) : NoEnd (w ++ t) := by
  cases t with
  | nil =>
    rw [List.append_nil]
    refine ⟨fun e => ?_, fun e => ?_⟩
    · have := hw _ (List.mem_of_getLast? e); revert this; decide
    · have := hw _ (List.mem_of_getLast? e); revert this; decide
  | cons c t =>
    have : (w ++ c :: t).getLast? = (c :: t).getLast? := by
      rw [List.getLast?_append, List.getLast?_eq_some_getLast (by simp)]; rfl
    rw [NoEnd, this]; exact h

theorem pairs_clean {m : List Char} {ps : List (List Char × List Char)} (h : Pairs finite m ps) : Clean m :=
  svg_clean (pairs_svg h (n := .lineTo) rfl)

/-- **C98 (reading)** A list of points of the SVG grammar is read as the path it stands for: all of its numbers, in their
order, a move to the first point and lines to the others. -/
theorem points_read {w text : List Char} {ps : List (List Char × List Char)} (h : Pairs finite text ps) (hw : Blank w)
    (hn : NoEnd text) : ∀ fuel > ps.length,
    parseString finite fuel (w ++ text) = some (.ok ⟨path ps, true⟩ ⟨w ++ text, width (w ++ text)⟩) := by
  intro fuel hf
  have hcl := pairs_clean h
  refine (whole_run (noEnd_blank hw hn) fuel _ _).mpr ⟨?_, ?_, rfl⟩
  · cases ps <;> simpa [path] using hf
  · rw [blank_drop hw (clean_ends hcl)]
    cases h with
    | nil => exact .done _
    | cons ha hr => exact read_start ha (pairs_svg hr rfl)

/-- **C98 (violated)** A letter before the points, which SVG does not allow, is accepted and forgotten: the value is that of
the points alone, so that a shape that is not drawn is drawn after it was written again. -/
theorem letter_violated {w v text : List Char} {ps : List (List Char × List Char)} (h : Pairs finite text ps) (hp : ps ≠ [])
    (hw : Blank w) (hv : Blank v) (hn : NoEnd text) : ∀ fuel > ps.length,
    parseString finite fuel (w ++ 'M' :: v ++ text) = some (.ok ⟨path ps, true⟩ ⟨w ++ 'M' :: v ++ text, width (w ++ 'M' :: v ++ text)⟩) := by
  intro fuel hf
  have hn' : NoEnd ('M' :: v ++ text) := by
    have h1 := noEnd_blank hv hn
    cases ht : v ++ text with
    | nil => rw [List.cons_append, ht]; exact ⟨by decide, by decide⟩
    | cons c l =>
      rw [ht] at h1
      rw [List.cons_append, ht, NoEnd, List.getLast?_cons_cons]
      exact h1
  rw [List.append_assoc]
  refine (whole_run (noEnd_blank hw hn') fuel _ _).mpr ⟨?_, ?_, rfl⟩
  · cases ps <;> simpa [path] using hf
  · have hcl : Clean ('M' :: (v ++ text)) := letter_head (letter_mem (k := .moveTo) rfl) _
    rw [List.cons_append, blank_drop hw (clean_ends hcl)]
    cases h with
    | nil => exact absurd rfl hp
    | cons ha hr =>
      have hs := pairs_svg hr (n := .moveTo) rfl
      refine .step (by simp) (.first (c := 'M') (k := .moveTo) (t := v ++ text) ?_ rfl (.inl rfl) ?_) (run_allow (svg_run hs))
      · exact blank_drop (a := []) (by simp [Blank]) (clean_ends hcl)
      · exact readArgs_blank hv (args_read ha (svg_clean hs))

/-- A list of points as the code reads it, up to the rest of the text: separators may have several commas. -/
inductive LoosePairs (finite : List Char → Bool) : List Char → List (List Char × List Char) → List Char → Prop
  | nil (r : List Char) : LoosePairs finite r [] r
  | cons {x y s m r z : List Char} {ps : List (List Char × List Char)} : LooseSep s → Args finite LooseSep [false, false] [x, y] m r →
      LoosePairs finite r ps z → LoosePairs finite (s ++ m) ((x, y) :: ps) z

theorem two_args {ts : List (List Char)} {sep : List Char → Prop} {m r : List Char} (h : Args finite sep [false, false] ts m r) :
    ∃ x y, ts = [x, y] := by
  cases h with
  | num _ _ _ h => cases h with
    | num _ _ _ h => cases h with
      | nil => exact ⟨_, _, rfl⟩

theorem no_letter_run {o o' : Option Kind} {m z : List Char} {ds : List (Data (List Char))} (h : Steps finite o m ds o' z) :
    o = some .lineTo → (∀ c ∈ m, ofLetter c = none) →
    o' = some .lineTo ∧ (∀ c ∈ z, ofLetter c = none) ∧
    ∃ ps : List (List Char × List Char), LoosePairs finite m ps z ∧ ds = ps.map fun q => .implicit (.plain .lineTo [q.1, q.2]) := by
  induction h with
  | done => intro ho hl; exact ⟨ho, hl, [], .nil _, rfl⟩
  | @step o o' l z r d ds hne hst hr ih =>
    intro ho hl
    subst ho
    obtain ⟨s, hs, el⟩ := afterSep_loose l
    obtain ⟨b, hb, -⟩ := hst.suffix
    have hz : ∀ c ∈ z, ofLetter c = none := fun c hc => hl c (by rw [hb]; simp [hc])
    have hsub : ∀ {c t}, afterSep l = c :: t → ofLetter c = none := fun {c t} e => hl c (by rw [el, e]; simp)
    cases hst with
    | letter e hk => rw [hsub e] at hk; cases hk
    | same e hk => rw [hsub e] at hk; cases hk
    | cont hno hz' =>
      obtain ⟨w, m, et, hw, ha⟩ := read_args hz'
      have hw0 : w = [] := ends_blank (by rw [← et]; exact afterSep_ends l) hw
      subst hw0
      rw [List.nil_append] at et
      obtain ⟨x, y, rfl⟩ := two_args ha
      obtain ⟨h0, h0', ps, h1, rfl⟩ := ih rfl hz
      refine ⟨h0, h0', (x, y) :: ps, ?_, rfl⟩
      rw [el, et]
      exact .cons hs ha h1

/-- The same from the start of the text. -/
theorem no_letter_start {u z : List Char} {o' : Option Kind} {L : List (Data (List Char))} (hr : Steps finite none u L o' z)
    (hl : ∀ c ∈ u, ofLetter c = none) (hd : u.dropWhile isWhitespace = u) (hends : Ends isWhitespace u) :
    ∃ ps, LoosePairs finite u ps z ∧ L = path ps ∧ (o' = none ∧ ps = [] ∨ o' = some .lineTo) ∧ ∀ c ∈ z, ofLetter c = none := by
  cases hr with
  | done => exact ⟨[], .nil _, rfl, .inl ⟨rfl, rfl⟩, hl⟩
  | step hne hst hr =>
    obtain ⟨b, hb, -⟩ := hst.suffix
    cases hst with
    | first e hk hm =>
      rw [hd] at e
      rw [hl _ (by rw [e]; simp)] at hk
      cases hk
    | start _ hno hz =>
      rw [hd] at hz
      obtain ⟨w, m, e1, hw1, ha⟩ := read_args hz
      have hw0 : w = [] := ends_blank (by rw [← e1]; exact hends) hw1
      subst hw0
      obtain ⟨x, y, rfl⟩ := two_args ha
      obtain ⟨h0, h0', ps, h1, rfl⟩ := no_letter_run hr rfl (fun c hc => hl c (by rw [hb]; simp [hc]))
      refine ⟨(x, y) :: ps, ?_, rfl, .inr h0, h0'⟩
      rw [e1]
      exact .cons ⟨[], 0, [], by simp [Blank], by simp [Blank], rfl⟩ ha h1

theorem ends_drop (text : List Char) : Ends isWhitespace (text.dropWhile isWhitespace) := by
  intro c t e
  have := List.head?_dropWhile_not isWhitespace text
  rw [e] at this
  simpa using this

/-- **C98 (nothing else)** If a text without letters of commands is read to its end, it is a list of points, up to repeated
commas, and the value has exactly the numbers of the text in their order. -/
theorem points_sound {text : List Char} {L : List (Data (List Char))} {fuel : Nat} {q : Parser} (hn : NoEnd text)
    (hl : ∀ c ∈ text, ofLetter c = none) (h : parseString finite fuel text = some (.ok ⟨L, true⟩ q)) :
    ∃ w t ps, text = w ++ t ∧ Blank w ∧ LoosePairs finite t ps [] ∧ L = path ps := by
  obtain ⟨-, hr, -⟩ := (whole_run hn fuel L q).mp h
  have et : text = text.takeWhile isWhitespace ++ text.dropWhile isWhitespace := by simp
  have hl' : ∀ c ∈ text.dropWhile isWhitespace, ofLetter c = none := fun c hc => hl c (by rw [et]; simp only [List.mem_append]; exact .inr hc)
  obtain ⟨o', hs⟩ := run_steps hr
  obtain ⟨ps, h1, h2, -⟩ := no_letter_start hs hl' (dropWhile_idem _ _) (ends_drop text)
  exact ⟨_, _, ps, et, fun c h => takeWhile_all c h, h1, h2⟩

/-- **C98 (errors)** If a text without letters of commands is not read to its end, the points before the error are kept: the
value has exactly the numbers of a list of points at the start of the text, and no further point follows there. -/
theorem points_prefix {text : List Char} {L : List (Data (List Char))} {fuel : Nat} {q : Parser} (hn : NoEnd text)
    (hl : ∀ c ∈ text, ofLetter c = none) (h : parseString finite fuel text = some (.ok ⟨L, false⟩ q)) :
    ∃ w t ps z, text = w ++ t ∧ Blank w ∧ LoosePairs finite t ps z ∧ L = path ps ∧ z ≠ [] ∧
      ∀ s x y m r, Blank s → Args finite Sep [false, false] [x, y] m r → Clean r → z ≠ s ++ m := by
  obtain ⟨p1, pre, q', h1, hc⟩ := parse_collect h
  obtain ⟨ds, o, z, rfl, hs, hz, hno⟩ := collect_steps fuel h1 (hn.dropWhile (f := isWhitespace)) hc
  have et : text = text.takeWhile isWhitespace ++ text.dropWhile isWhitespace := by simp
  have hl' : ∀ c ∈ text.dropWhile isWhitespace, ofLetter c = none := fun c hc => hl c (by rw [et]; simp only [List.mem_append]; exact .inr hc)
  obtain ⟨ps, g1, g2, g3, g4⟩ := no_letter_start hs hl' (dropWhile_idem _ _) (ends_drop text)
  refine ⟨_, _, ps, z, et, fun c h => takeWhile_all c h, g1, g2, hz, ?_⟩
  rintro s x y m r hb ha hr rfl
  have hrd := args_read ha hr
  have hcl := args_clean ha hr
  have hm : NoLetter m := by
    intro c t e
    exact g4 c (by rw [e]; simp)
  rcases g3 with ⟨rfl, -⟩ | rfl
  · have hd := blank_drop hb (clean_ends hcl)
    exact hno _ _ (.start rfl (by rw [hd]; exact hm) (by rw [hd]; exact hrd))
  · have hd : afterSep (s ++ m) = m := afterSep_of ⟨s, [], hb, by simp [Blank], .inl (by simp)⟩ hcl
    exact hno _ _ (.cont (by rw [hd]; exact hm) (by rw [hd]; exact hrd))

/-- **C98 (errors)** Reading points never ends with an error, whatever the text is. -/
theorem points_accepted (fuel : Nat) (text : List Char) (q : Parser) : parseString finite fuel text ≠ some (.err q) := parse_never

/-- **C98 (ends)** Reading comes to an end for every text without the letter of a close-path, so for every list of points. -/
theorem points_halt {text : List Char} (hz : 'z' ∉ text ∧ 'Z' ∉ text) : ∃ fuel r, parseString finite fuel text = some r := by
  have h0 : At (Parser.new text) [] text := ⟨rfl, rfl⟩
  obtain ⟨p1, e1, m1, -⟩ := At.ws h0
  obtain ⟨fuel, r, h⟩ := halts_fwd (finite := finite) (allow := true) (width p1.input - p1.cursor) (list := []) (p := p1) (Nat.le_refl _)
    (by simp) (by rw [m1]; exact hz)
  refine ⟨fuel, ?_⟩
  cases hp : parseString finite fuel text with
  | some r => exact ⟨r, rfl⟩
  | none => rw [parse_none e1, h] at hp; cases hp

/-- **C98 (violated)** A close-path before a number keeps the program running for ever. -/
theorem points_halt_violated (fuel : Nat) : parseString (fun _ => true) fuel "0 0z5".toList = none := by
  have e1 : (Parser.new "0 0z5".toList).skipWhitespace = .ok () ⟨"0 0z5".toList, 0⟩ := by decide +kernel
  rw [parse_none e1]
  have i1 : iteration (fun _ => true) true [] ⟨"0 0z5".toList, 0⟩ = .ok (.plain .moveTo ["0".toList, "0".toList]) ⟨"0 0z5".toList, 3⟩ := by
    decide +kernel
  have i2 : iteration (fun _ => true) true [.plain .moveTo ["0".toList, "0".toList]] ⟨"0 0z5".toList, 3⟩ =
      .ok (.plain .closePath []) ⟨"0 0z5".toList, 4⟩ := by decide +kernel
  match fuel with
  | 0 => rfl
  | 1 => rw [parseExtend, if_neg (by decide +kernel), if_neg (by decide +kernel), i1]; rfl
  | n + 2 =>
    rw [parseExtend, if_neg (by decide +kernel), if_neg (by decide +kernel), i1]
    simp only [continue', List.nil_append]
    rw [parseExtend, if_neg (by decide +kernel), if_neg (by decide +kernel), i2]
    simp only [continue', List.cons_append, List.nil_append]
    exact spins_forever n (pre := "0 0z".toList) (rest := ['5']) ⟨by decide +kernel, by decide +kernel⟩ ⟨by decide, by decide⟩
      ⟨rfl, '5', [], by decide +kernel, by decide +kernel, by decide⟩

/-! ## Writing -/

theorem path_written {p : Num × Num} {ps : List (Num × Num)} (hv : ∀ q ∈ p :: ps, q.1.Valid ∧ q.2.Valid) :
    format (path (p :: ps)) = 'M' :: written (path (p :: ps)) := by
  have h0 := hv p (by simp)
  have ha : ∀ n ∈ [p.1, p.2], n.Valid := by simp [h0.1, h0.2]
  have hf := from_written (prev := [p.1, p.2]) (ds := ps.map fun q => .implicit (.plain .lineTo [q.1, q.2])) (by simp) (by
    intro d hd
    obtain ⟨q, hq, rfl⟩ := List.mem_map.mp hd
    have := hv q (by simp [hq])
    exact ⟨by simp [Data.args], rfl, by simp [Data.args, this.1, this.2]⟩)
  have hs : strip [Kind.moveTo.letter] = [] := rfl
  rw [path, format_cons _ rfl, written]
  cases ps with
  | nil =>
    have e := args_written ha
    simp only [pathPieces, List.map_nil, Data.id, ID.isImplicit, Data.args, formatFrom, ID.letter] at *
    simp only [List.map_append, List.flatten_append, e]
    simp [strip, Kind.letter]
  | cons q qs =>
    have e := args_written ha
    simp only [List.map_cons, pathPieces, Data.id, Data.args, ID.letter] at *
    simp only [List.map_cons, List.map_append, List.flatten_append, List.flatten_cons, e, hf, hs, List.cons_append]
    rfl

theorem path_fits {ps : List (Num × Num)} (hv : ∀ q ∈ ps, q.1.Valid ∧ q.2.Valid) : ∀ {n : Kind}, continues n = some .lineTo →
    Written n (ps.map fun q => .implicit (.plain .lineTo [q.1, q.2])) := by
  induction ps with
  | nil => intro n _; exact .nil n
  | cons q ps ih =>
    intro n hn
    have := hv q (by simp)
    exact .again hn (.num _ this.1 (.num _ this.2 .nil)) (ih (fun q hq => hv q (by simp [hq])) rfl)

theorem noEnd_tail {c : Char} {t : List Char} (h : NoEnd (c :: t)) : NoEnd t := h.suffix (a := [c])

/-- **C98 (partial)** Points are written without a letter, and read as the same points again, if their numbers avoid the
cases in which a path is not written properly (`SafePath`, see C21). -/
theorem points_written_partial {ps : List (Num × Num)} (hv : ∀ q ∈ ps, q.1.Valid ∧ q.2.Valid) (hs : SafePath (path ps))
    (hfin : ∀ q ∈ ps, finite (short q.1) = true ∧ finite (short q.2) = true) :
    ∃ L, (∀ fuel > ps.length, ∃ q, parseString finite fuel (written (path ps)) = some (.ok ⟨L, true⟩ q)) ∧
      All2 SameCommand L (path ps) := by
  cases ps with
  | nil =>
    refine ⟨[], fun fuel hf => ⟨⟨[], 0⟩, ?_⟩, .nil⟩
    exact points_read (w := []) .nil (by simp [Blank]) ⟨by simp, by simp⟩ fuel hf
  | cons p ps =>
    have h0 := hv p (by simp)
    have ef := path_written hv
    have hfit : Fits Kind.moveTo.shape [p.1, p.2] := .num _ h0.1 (.num _ h0.2 .nil)
    have hva := fits_valid hfit
    have hs' := hs
    rw [path] at hs'
    have hfd : ∀ d ∈ ps.map (fun q : Num × Num => Data.implicit (.plain .lineTo [q.1, q.2])), ∀ m ∈ d.args, finite (short m) = true := by
      intro d hd m hm
      obtain ⟨q, hq, rfl⟩ := List.mem_map.mp hd
      have := hfin q (by simp [hq])
      simp only [Data.args, List.mem_cons, List.not_mem_nil, or_false] at hm
      rcases hm with rfl | rfl
      · exact this.1
      · exact this.2
    have hfa : ∀ m ∈ [p.1, p.2], finite (short m) = true := by
      have := hfin p (by simp)
      simp [this.1, this.2]
    obtain ⟨b, m, L, e1, h1, h2, h3, h4, h5⟩ := tail_ok (finite := finite) (path_fits (n := .moveTo) (fun q hq => hv q (by simp [hq])) rfl)
      (prev := .plain .moveTo [p.1, p.2]) rfl hs' hfd hva
    simp only [Data.args] at e1 h3 h4 h5
    have hga := (hs'.1 (.plain .moveTo [p.1, p.2]) (by simp)).1
    have hargs := args_ok hfit (hs'.1 (.plain .moveTo [p.1, p.2]) (by simp)) hfa (spaceText b) m (sep_space b) h3 (fun h => by simp at h)
    have et : written (path (p :: ps)) = argsText [p.1, p.2] ++ spaceText b ++ m := by
      have : format (path (p :: ps)) = 'M' :: (argsText [p.1, p.2] ++ spaceText b ++ m) := by
        rw [path, format_cons _ rfl]
        simp only [Data.args, e1]
        simp [Data.id, ID.letter, Kind.letter]
      rw [this] at ef
      exact (List.cons.inj ef).2.symm
    have hlast : LastOk (format (path (p :: ps))) := by
      have := h5 _ (lastOk_args [Kind.moveTo.letter] (by simpa using lastOk_letter .moveTo []) (fun n hn => ⟨hva n hn, hga n hn⟩))
      rw [path, format_cons _ rfl]
      simpa [Data.args, Data.id, ID.letter] using this
    have hn : NoEnd (written (path (p :: ps))) := by
      apply noEnd_tail (c := 'M')
      rw [← ef]
      obtain ⟨c, g1, g2, g3⟩ := hlast
      exact ⟨by rw [g1]; simp [g2], by rw [g1]; simp [g3]⟩
    have hsame : All2 SameCommand (.plain .moveTo [short p.1, short p.2] :: L) (path (p :: ps)) :=
      .cons ⟨rfl, same_args hva hga⟩ h2
    refine ⟨_, fun fuel hfuel => ⟨⟨written (path (p :: ps)), width (written (path (p :: ps)))⟩, ?_⟩, hsame⟩
    refine (whole_run hn fuel _ _).mpr ⟨?_, ?_, rfl⟩
    · have := hsame.length_eq
      simp [path] at this hfuel ⊢
      omega
    · have hr := read_start hargs h1
      have hcl := args_clean hargs (svg_clean h1)
      have hd := blank_drop (a := []) (by simp [Blank]) (clean_ends hcl)
      rw [List.nil_append] at hd
      rw [et, hd]
      exact hr

/-- **C98** What is written for points has no letter `M`, and a path written for the same points is this text behind one. -/
theorem points_bare {p : Num × Num} {ps : List (Num × Num)} (hv : ∀ q ∈ p :: ps, q.1.Valid ∧ q.2.Valid) :
    written (path (p :: ps)) = (format (path (p :: ps))).tail := by rw [path_written hv]; rfl

/-- **C98 (violated)** A second move loses its letter too, and nothing is put in its place: the numbers before and behind it
are written without anything between them. -/
theorem moves_violated {a b : List Num} (hb : b ≠ []) (ha : ∀ n ∈ a, n.Valid) (hb' : ∀ n ∈ b, n.Valid) :
    written [.plain .moveTo a, .plain .moveTo b] = argsText a ++ argsText b := by
  have e1 := args_written ha
  have e2 := args_written hb'
  have hl : leaderPieces a (.plain .moveTo b) = [['M']] := by
    simp [leaderPieces, Data.args, Data.id, Data.isImplicit, ID.letter, Kind.letter]
  simp only [written, pathPieces, piecesFrom, hl, Data.args, List.map_append, List.map_cons, List.map_nil, List.flatten_append,
    List.flatten_cons, List.flatten_nil, e1, e2, List.append_nil, List.cons_append]
  simp [strip, Data.id, ID.letter, Kind.letter]

/-- A piece that is a single letter or has no `M`. -/
def Simple (p : List Char) : Prop := (∃ c, p = [c]) ∨ 'M' ∉ p

theorem strip_simple {ps : List (List Char)} (h : ∀ p ∈ ps, Simple p) :
    (ps.map strip).flatten = ps.flatten.filter (· ≠ 'M') := by
  induction ps with
  | nil => rfl
  | cons p ps ih =>
    rw [List.map_cons, List.flatten_cons, List.flatten_cons, List.filter_append, ih fun q hq => h q (by simp [hq])]
    congr 1
    rcases h p (by simp) with ⟨c, rfl⟩ | hp
    · by_cases hc : c = 'M' <;> simp [strip, hc]
    · rw [strip_noM hp, List.filter_eq_self.mpr]
      intro c hc
      simp only [ne_eq, decide_eq_true_eq]
      rintro rfl
      exact hp hc

theorem leaderPieces_spec (prev : List Num) (d : Data Num) : (leaderPieces prev d).flatten = leader prev d ∧
    ∀ p ∈ leaderPieces prev d, Simple p := by
  unfold leaderPieces leader
  have hl : ∀ c : Char, ([[c]] : List (List Char)).flatten = [c] ∧ ∀ p ∈ [[c]], Simple p :=
    fun c => ⟨rfl, fun p hp => .inl ⟨c, by simpa using hp⟩⟩
  split
  · exact hl _
  split
  · exact hl _
  split
  · exact ⟨spacePiece_flat _, fun p hp => .inr (spacePiece_noM _ p hp)⟩
  · exact hl _

theorem piecesFrom_spec {ds : List (Data Num)} (hv : ∀ d ∈ ds, ∀ n ∈ d.args, n.Valid) : ∀ prev : List Num,
    (piecesFrom prev ds).flatten = formatFrom prev ds ∧ ∀ p ∈ piecesFrom prev ds, Simple p := by
  induction ds with
  | nil => intro prev; exact ⟨rfl, fun p hp => by simp [piecesFrom] at hp⟩
  | cons d ds ih =>
    intro prev
    have ih := ih (fun d hd => hv d (by simp [hd])) d.args
    refine ⟨by simp [piecesFrom, formatFrom, (leaderPieces_spec prev d).1, (argPieces_spec d.args).1, ih.1], ?_⟩
    intro p hp
    simp only [piecesFrom, List.mem_append] at hp
    rcases hp with (hp | hp) | hp
    · exact (leaderPieces_spec prev d).2 p hp
    · exact .inr ((argPieces_spec d.args).2 (hv d (by simp)) p hp)
    · exact ih.2 p hp

/-- **C98** Whatever the commands are, what is written is the path with every `M` taken out and nothing else. -/
theorem written_eq {l : List (Data Num)} (hv : ∀ d ∈ l, ∀ n ∈ d.args, n.Valid) : written l = (format l).filter (· ≠ 'M') := by
  have key : (pathPieces l).flatten = format l ∧ ∀ p ∈ pathPieces l, Simple p := by
    match l, hv with
    | [], _ => exact ⟨rfl, fun p hp => by simp [pathPieces] at hp⟩
    | [d], hv =>
      refine ⟨?_, ?_⟩
      · simp only [pathPieces, format, Data.display, ID.display, List.flatten_append, (argPieces_spec d.args).1]
        split <;> rfl
      · intro p hp
        simp only [pathPieces, List.mem_append] at hp
        rcases hp with hp | hp
        · split at hp
          · simp at hp
          · exact .inl ⟨_, by simpa using hp⟩
        · exact .inr ((argPieces_spec d.args).2 (hv d (by simp)) p hp)
    | d :: e :: ds, hv =>
      have h := piecesFrom_spec (ds := e :: ds) (fun d hd => hv d (by simp only [List.mem_cons] at hd ⊢; exact .inr hd)) d.args
      refine ⟨?_, ?_⟩
      · simp only [pathPieces, format, List.flatten_append, List.flatten_cons, List.cons_append, (argPieces_spec d.args).1, h.1]
        rfl
      · intro p hp
        simp only [pathPieces, List.cons_append, List.mem_cons, List.mem_append] at hp
        rcases hp with hp | hp | hp
        · exact .inl ⟨_, hp⟩
        · exact .inr ((argPieces_spec d.args).2 (hv d (by simp)) p hp)
        · exact h.2 p hp
  rw [written, strip_simple key.2, key.1]

/-! ### Examples -/

/-- Only the letters of absolute moves are taken out. -/
example : written [.plain .moveBy [⟨false, ['1'], 0⟩, ⟨false, ['2'], 0⟩], .plain .moveTo [⟨false, ['3'], 0⟩, ⟨true, ['4'], 0⟩],
    .plain .closePath []] = "m1 23-4Z".toList := by decide +kernel

private def all : List Char → Bool := fun _ => true

private def num (neg : Bool) (d : String) (e : Int) : Num := ⟨neg, d.toList, e⟩

/-- Points are read. -/
example : parseString all 9 " 1,2 3.5-4 ".toList =
    some (.ok ⟨[.plain .moveTo ["1".toList, "2".toList], .implicit (.plain .lineTo ["3.5".toList, "-4".toList])], true⟩
      ⟨" 1,2 3.5-4 ".toList, 11⟩) := by decide +kernel

/-- A number too many is dropped. -/
example : parseString all 9 "1 2 3".toList =
    some (.ok ⟨[.plain .moveTo ["1".toList, "2".toList]], false⟩ ⟨"1 2 3".toList, 5⟩) := by decide +kernel

/-- Commands of paths are read. -/
example : parseString all 9 "1 2M3 4H5".toList =
    some (.ok ⟨[.plain .moveTo ["1".toList, "2".toList], .plain .moveTo ["3".toList, "4".toList], .plain .horizontalTo ["5".toList]], true⟩
      ⟨"1 2M3 4H5".toList, 9⟩) := by decide +kernel

/-- Points are written. -/
example : written (path [(num false "1" 0, num false "2" 0), (num false "35" (-1), num true "4" 0), (num false "5" (-1), num false "5" (-1))]) =
    "1 2 3.5-4 .5.5".toList := by decide +kernel

/-- Repeated commas are read. -/
example : parseString all 9 "1,,2".toList = some (.ok ⟨path [("1".toList, "2".toList)], true⟩ ⟨"1,,2".toList, 4⟩) := by decide +kernel

/-- The grammar on points with a sign as separator. -/
private theorem sample : Pairs all "1,2-3 4".toList [("1".toList, "2".toList), ("-3".toList, "4".toList)] := by
  have num : ∀ (t r : List Char), Number.IsNumber t → t.foldl Number.step .start = .int → Ends Char.isDigit r → r.head? ≠ some '.' →
      r.head? ≠ some 'e' → r.head? ≠ some 'E' → Apart t r := by
    intro t r h hi h1 h2 h3 h4
    refine ⟨longest_of h h1 (fun _ u e => h2 (by rw [e]; rfl)) (fun _ e y u er he => ?_), fun h => absurd h h2⟩
    simp only [isE, Bool.or_eq_true, beq_iff_eq] at he
    rcases he with rfl | rfl
    · exact absurd (by rw [er]; rfl) h3
    · exact absurd (by rw [er]; rfl) h4
  have isnum : ∀ t : List Char, Number.rustFloat t = true → Number.IsNumber t := fun t h => (Number.rustFloat_iff t).mp h
  have sp : Sep [' '] := ⟨[' '], [], by intro c h; simp at h; subst h; decide, by simp [Blank], .inl rfl⟩
  have co : Sep [','] := ⟨[], [], by simp [Blank], by simp [Blank], .inr rfl⟩
  have no : Sep [] := ⟨[], [], by simp [Blank], by simp [Blank], .inl rfl⟩
  have e : ∀ (c : Char) (u : List Char), c.isDigit = false → Ends Char.isDigit (c :: u) := by
    intro c u h d v hv
    simp at hv
    rw [← hv.1]; exact h
  refine .cons (r := "-3 4".toList) (.num (t := "1".toList) (s := [',']) (m := "2-3 4".toList) ?_ rfl co
    (.num (t := "2".toList) (s := []) (m := "-3 4".toList) ?_ rfl no (.nil _)))
    (.cons (r := []) (.num (t := "-3".toList) (s := [' ']) (m := "4".toList) ?_ rfl sp
      (.num (t := "4".toList) (s := []) (m := []) ?_ rfl no (.nil _))) .nil)
  · exact num _ _ (isnum _ (by decide +kernel)) (by decide +kernel) (e _ _ (by decide)) (by decide) (by decide) (by decide)
  · exact num _ _ (isnum _ (by decide +kernel)) (by decide +kernel) (e _ _ (by decide)) (by decide) (by decide) (by decide)
  · exact num _ _ (isnum _ (by decide +kernel)) (by decide +kernel) (e _ _ (by decide)) (by decide) (by decide) (by decide)
  · exact num _ _ (isnum _ (by decide +kernel)) (by decide +kernel) (fun c t h => by cases h) (by decide) (by decide) (by decide)

/-- The same points behind a letter. -/
example : ∀ fuel > 2, ∃ q, parseString all fuel "M 1,2-3 4".toList = some (.ok ⟨path [("1".toList, "2".toList), ("-3".toList, "4".toList)], true⟩ q) :=
  fun fuel hf => ⟨_, letter_violated (w := []) (v := [' ']) sample (by simp) (by simp [Blank])
    (by intro c h; simp at h; subst h; decide) ⟨by decide, by decide⟩ fuel hf⟩

/-- Two points become one, and a number too many. -/
example : written [.plain .moveTo [num false "1" 0, num false "2" 0], .plain .moveTo [num false "3" 0, num false "4" 0]] =
    "1 23 4".toList := by decide +kernel

/-- What was written is not what was read. -/
example : (parseString all 9 "1 2M3 4".toList).map (fun r => match r with | .ok v _ => v.commands.length | _ => 0) = some 2 ∧
    parseString all 9 "1 23 4".toList = some (.ok ⟨[.plain .moveTo ["1".toList, "23".toList]], false⟩ ⟨"1 23 4".toList, 6⟩) := by
  decide +kernel

private theorem adjacent_of {α : Type} {R : α → α → Prop} {l : List α} (h : ∀ x ∈ l.zip l.tail, R x.1 x.2) :
    ∀ i p c, l[i]? = some p → l[i + 1]? = some c → R p c := by
  intro i p c hp hc
  refine h (p, c) (List.mem_of_getElem? (i := i) ?_)
  rw [List.getElem?_zip_eq_some]
  exact ⟨hp, by simpa using hc⟩

private def points : List (Num × Num) :=
  [(num false "1" 0, num false "2" 0), (num false "35" (-1), num true "4" 0), (num false "5" (-1), num false "5" (-1))]

private theorem points_valid : ∀ q ∈ points, q.1.Valid ∧ q.2.Valid := by
  have : ∀ q ∈ points, ((∀ c ∈ q.1.digits, c.isDigit = true) ∧ q.1.digits.head? ≠ some '0' ∧ q.1.digits.getLast? ≠ some '0') ∧
      ((∀ c ∈ q.2.digits, c.isDigit = true) ∧ q.2.digits.head? ≠ some '0' ∧ q.2.digits.getLast? ≠ some '0') := by decide +kernel
  exact this

private theorem points_safe : SafePath (path points) := by
  refine ⟨?_, ?_⟩
  · have : ∀ d ∈ path points, (∀ n ∈ d.args, n.Good) ∧ ∀ x ∈ d.args.zip d.args.tail, Next x.1 x.2 := by decide +kernel
    exact fun d hd => ⟨(this d hd).1, adjacent_of (this d hd).2⟩
  · have : ∀ x ∈ (path points).zip (path points).tail, x.2.isImplicit = true → ∀ p ∈ x.1.args.getLast?, ∀ c ∈ x.2.args.head?, NextImplicit p c := by
      decide +kernel
    exact adjacent_of (R := fun d d' => d'.isImplicit = true → ∀ p c, d.args.getLast? = some p → d'.args.head? = some c → NextImplicit p c)
      (fun x hx hi p c hp hc => this x hx hi p hp c hc)

/-- Three points are read again. -/
example : ∃ L, (∀ fuel > 3, ∃ q, parseString all fuel "1 2 3.5-4 .5.5".toList = some (.ok ⟨L, true⟩ q)) ∧ All2 SameCommand L (path points) := by
  have h := points_written_partial (finite := all) points_valid points_safe (fun _ _ => ⟨rfl, rfl⟩)
  rwa [show written (path points) = "1 2 3.5-4 .5.5".toList by decide +kernel] at h

end Verif.Points
