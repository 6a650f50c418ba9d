import Verif.Moves.Lemmas
import Verif.Words.Main

/-!
# C96: transforms are read and written with the same meaning
-/

namespace Verif.Moves

open Verif.Parse Verif.Clock Verif.Number Verif.Boxes Verif.Choice

variable {γ : Type} {p q : Parser} {pre rest r t u w w' g z R : List Char} {css : List Char → Option γ} {cssText : γ → List Char}

/-! ## Reading -/

theorem sep_commas (h : Sep g) : Commas g := by
  rcases h with rfl | h
  · exact ⟨[], 0, [], rfl, white_nil, white_nil⟩
  · exact comma_commas h

theorem items_head {l : List Move} (h : Items t l) : ∃ c u, t = c :: u ∧ isWhitespace c = false ∧ c ≠ ',' := by
  cases h with
  | last t m w h _ => obtain ⟨c, u, rfl, h1, h2⟩ := means_head h; exact ⟨c, _, rfl, h1, h2⟩
  | more t m g r l h _ _ => obtain ⟨c, u, rfl, h1, h2⟩ := means_head h; exact ⟨c, _, rfl, h1, h2⟩

theorem items_fine {l : List Move} (h : Items t l) : Fine t := by
  induction h with
  | last t m w h hw => exact fine_append (means_fine h) (fine_white hw)
  | more t m g r l h hg hr ih =>
    have hne : r ≠ [] := by obtain ⟨c, x, rfl, _⟩ := items_head hr; simp
    exact fine_left (fine_left ih hne) (by simp [hne])

/-- At the end, with white space before it. -/
theorem comma_end (hp : At p pre w) (hw : White w) : ∃ q pre', skipComma p = .ok () q ∧ At q pre' [] := by
  obtain ⟨q, e, a⟩ := skip_white (r := []) (by simpa using hp) hw ends_nil
  have e2 := (skipChar_iff a ',').mpr (by simp)
  have e2' : q.skipChar ',' = .ok () q := by simpa [width] using e2
  obtain ⟨q', e3, a3⟩ := skip_white (w := []) (r := []) (by simpa using a) white_nil ends_nil
  refine ⟨q', _, ?_, a3⟩
  rw [skipComma, e]
  simp only [Res.bind, e2', e3]

/-- No transform begins at the end. -/
theorem item_end (h0 : css [] = none) (hp : At p pre []) : p.tryParse (item css) = .err p := by
  obtain ⟨q, hi, e, _⟩ := expectIdent_spec hp (by intro c t e; simp at e)
  have hfn : (function p : Res (Item γ)) = .err q := by rw [function, e]; rfl
  obtain ⟨e1, _⟩ := Words.slice_at hp
  refine tryParse_err (q := p.finish) ?_ rfl
  rw [item, tryParse_err hfn hi]
  simp only [orElse, e1, Res.bind, h0]

theorem loop_end (h0 : css [] = none) (n : Nat) (hp : At p pre w) (hw : White w) :
    ∃ q pre', loop css (n + 1) p = .ok [] q ∧ At q pre' [] := by
  obtain ⟨q, pre', e, a⟩ := comma_end hp hw
  refine ⟨q, pre', ?_, a⟩
  rw [loop, e]
  simp only [Res.bind, item_end h0 a]

/-- The loop over transforms. -/
theorem loop_read (h0 : css [] = none) {l : List Move} (h : Items t l) (n : Nat) (hg : Sep g) (hp : At p pre (g ++ t)) :
    (l.length < n → ∃ x q pre', loop css n p = .ok x q ∧ List.Forall₂ Gives x l ∧ At q pre' []) ∧ (n ≤ l.length → loop css n p = .panic) := by
  induction h generalizing n p pre g with
  | last t m w h hw =>
    cases n with
    | zero => exact ⟨by simp, fun _ => rfl⟩
    | succ n =>
      have hf : Fine (t ++ w) := fine_append (means_fine h) (fine_white hw)
      obtain ⟨c, u, e, h1, h2⟩ := means_head h
      obtain ⟨q1, e1, a1⟩ := gap_read (c := c) (r := u ++ w) (by rw [e] at hp; simpa using hp) (sep_commas hg) h1 h2 (by rw [e] at hf; exact hf)
      obtain ⟨x, q2, _, e2, hx, a2⟩ := item_read (css := css) (k := w) h (by rw [e]; exact a1) (fine_paren (fine_white hw))
      cases n with
      | zero =>
        refine ⟨by simp, fun _ => ?_⟩
        rw [loop, gap_eq, e1]
        simp only [Res.bind, e2, loop]
      | succ n =>
        refine ⟨fun _ => ?_, by simp⟩
        obtain ⟨q3, _, e3, a3⟩ := loop_end h0 n a2 hw
        refine ⟨[x], q3, _, ?_, .cons hx .nil, a3⟩
        rw [loop, gap_eq, e1]
        simp only [Res.bind, e2, e3]
  | more t m g' r l h hg' hr ih =>
    cases n with
    | zero => exact ⟨by simp, fun _ => rfl⟩
    | succ n =>
      have hne : r ≠ [] := by obtain ⟨c, x, rfl, _⟩ := items_head hr; simp
      have hf' : Fine (g' ++ r) := fine_left (items_fine hr) hne
      have hf : Fine (t ++ (g' ++ r)) := fine_left hf' (by simp [hne])
      obtain ⟨c, u, e, h1, h2⟩ := means_head h
      obtain ⟨q1, e1, a1⟩ := gap_read (c := c) (r := u ++ (g' ++ r)) (by rw [e] at hp; simpa using hp) (sep_commas hg) h1 h2 (by rw [e] at hf; exact hf)
      obtain ⟨x, q2, _, e2, hx, a2⟩ := item_read (css := css) (k := g' ++ r) h (by rw [e]; exact a1) (fine_paren hf')
      obtain ⟨ih1, ih2⟩ := ih n hg' a2
      constructor
      · intro hn
        obtain ⟨xs, q3, _, e3, hxs, a3⟩ := ih1 (by simpa using hn)
        refine ⟨x :: xs, q3, _, ?_, .cons hx hxs, a3⟩
        rw [loop, gap_eq, e1]
        simp only [Res.bind, e2, e3]
      · intro hn
        rw [loop, gap_eq, e1]
        simp only [Res.bind, e2, ih2 (by simpa using hn)]

theorem list_read (h0 : css [] = none) {l : List Move} (h : ListMeans t l) (hl : l.length < 2048) :
    ∃ x q, ListOf.parseString (list css) t = .ok x q ∧ List.Forall₂ Gives x l := by
  rcases h with ⟨hw, rfl⟩ | ⟨w, x, rfl, hw, h⟩
  · have := parse_done (T := list css) (P := fun x => List.Forall₂ Gives x []) (w := t) (x := []) hw ends_nil (fun p pre hp => by
      obtain ⟨q, _, e, a⟩ := loop_end h0 2047 hp white_nil
      exact ⟨[], q, _, [], e, a, white_nil, .nil⟩)
    simpa using this
  · obtain ⟨c, u, e, hc, _⟩ := items_head h
    exact parse_done (T := list css) hw (by rw [e]; exact ends_of hc) (fun p pre hp => by
      obtain ⟨x, q, _, e, hx, a⟩ := (loop_read h0 h 2048 (.inl rfl) (by simpa using hp)).1 hl
      exact ⟨x, q, _, [], e, a, white_nil, hx⟩)

/-! ## Writing -/

theorem blank_between (r : List Char) : Between [' '] r := .inl (blank_comma ⟨by simp [White], by simp⟩)

theorem args_two {a b : List Char} {x y : ℚ} (h1 : Value a x) (h2 : Value b y) : Args (a ++ ' ' :: b) [x, y] :=
  .more _ _ [' '] _ _ h1 (blank_between _) (.one _ _ h2)

/-- The function of a name with arguments. -/
theorem means_call {nm name : List Char} {l : List ℚ} {m : Move} (hc : Call name l m) (hn : nm = name ++ ['(']) (hu : Args u l) :
    Means (nm ++ (u ++ [')'])) m :=
  ⟨name, [], [], u, [], l, by rw [hn]; simp, white_nil, white_nil, white_nil, hu, hc⟩

theorem shape_one (nm a : List Char) : nm ++ (a ++ ([] ++ [')'])) = nm ++ (a ++ [')']) := by simp
theorem shape_two (nm a b : List Char) : nm ++ (a ++ (' ' :: b ++ [')'])) = nm ++ ((a ++ ' ' :: b) ++ [')']) := by simp
theorem shape_six (nm a b c d e f : List Char) :
    nm ++ (a ++ ' ' :: (b ++ ' ' :: (c ++ ' ' :: (d ++ ' ' :: (e ++ ' ' :: (f ++ [')'])))))) =
      nm ++ ((a ++ ([' '] ++ (b ++ ([' '] ++ (c ++ ([' '] ++ (d ++ ([' '] ++ (e ++ ' ' :: f))))))))) ++ [')']) := by simp

theorem text_matrix (a b c d e f : Num) : itemText z cssText (.matrix a b c d e f) = "matrix(".toList ++ (a.text z ++ ' ' :: (b.text z ++ ' ' ::
    (c.text z ++ ' ' :: (d.text z ++ ' ' :: (e.text z ++ ' ' :: (f.text z ++ [')'])))))) := rfl
theorem text_translate (x y : Num) : itemText z cssText (.translate x y) =
    "translate(".toList ++ (x.text z ++ ((if isZero y then [] else ' ' :: y.text z) ++ [')'])) := rfl
theorem text_scale (x y : Num) : itemText z cssText (.scale x y) =
    "scale(".toList ++ (x.text z ++ ((if same x y then [] else ' ' :: y.text z) ++ [')'])) := rfl
theorem text_rotate (a x y : Num) : itemText z cssText (.rotate a x y) =
    "rotate(".toList ++ (a.text z ++ ((if isZero x && isZero y then [] else ' ' :: (x.text z ++ ' ' :: y.text z)) ++ [')'])) := rfl
theorem text_skewX (a : Num) : itemText z cssText (.skewX a) = "skewX(".toList ++ (a.text z ++ [')']) := rfl
theorem text_skewY (a : Num) : itemText z cssText (.skewY a) = "skewY(".toList ++ (a.text z ++ [')']) := rfl

/-- **A transform is written with its meaning.** -/
theorem item_written {x : Item γ} {m : Move} (h : Gives x m) (hz : z = "0".toList ∨ z = "-0".toList) : Means (itemText z cssText x) m := by
  cases h with
  | matrix h1 h2 h3 h4 h5 h6 =>
    rw [text_matrix, shape_six]
    exact means_call (.matrix _ _ _ _ _ _) rfl (.more _ _ [' '] _ _ (num_value h1 hz) (blank_between _) (.more _ _ [' '] _ _ (num_value h2 hz) (blank_between _)
      (.more _ _ [' '] _ _ (num_value h3 hz) (blank_between _) (.more _ _ [' '] _ _ (num_value h4 hz) (blank_between _)
        (args_two (num_value h5 hz) (num_value h6 hz))))))
  | @translate x y x' y' h1 h2 =>
    rw [text_translate]
    by_cases hy : isZero y = true
    · obtain rfl := isZero_value h2 hy
      rw [if_pos hy, shape_one]
      exact means_call (.translateX _) rfl (.one _ _ (num_value h1 hz))
    · rw [if_neg hy, shape_two]
      exact means_call (.translate _ _) rfl (args_two (num_value h1 hz) (num_value h2 hz))
  | @scale x y x' y' h1 h2 =>
    rw [text_scale]
    by_cases hy : same x y = true
    · obtain rfl := same_value h1 h2 hy
      rw [if_pos hy, shape_one]
      exact means_call (.scaleBoth _) rfl (.one _ _ (num_value h1 hz))
    · rw [if_neg hy, shape_two]
      exact means_call (.scale _ _) rfl (args_two (num_value h1 hz) (num_value h2 hz))
  | @rotate a x y a' x' y' h1 h2 h3 =>
    rw [text_rotate]
    by_cases hy : (isZero x && isZero y) = true
    · rw [if_pos hy, shape_one]
      rw [Bool.and_eq_true] at hy
      obtain rfl := isZero_value h2 hy.1
      obtain rfl := isZero_value h3 hy.2
      exact means_call (.rotateOrigin _) rfl (.one _ _ (num_value h1 hz))
    · rw [if_neg hy, shape_two]
      exact means_call (.rotate _ _ _) rfl (.more _ _ [' '] _ _ (num_value h1 hz) (blank_between _) (args_two (num_value h2 hz) (num_value h3 hz)))
  | skewX h =>
    rw [text_skewX]
    exact means_call (.skewX _) rfl (.one _ _ (num_value h hz))
  | skewY h =>
    rw [text_skewY]
    exact means_call (.skewY _) rfl (.one _ _ (num_value h hz))

theorem list_written {x : List (Item γ)} {l : List Move} (h : List.Forall₂ Gives x l) (hz : z = "0".toList ∨ z = "-0".toList) :
    ListMeans (listText z cssText x) l := by
  have key : ∀ {x : List (Item γ)} {l}, List.Forall₂ Gives x l → l ≠ [] → Items (listText z cssText x) l := by
    intro x l h
    induction h with
    | nil => simp
    | @cons a m x l h h' ih =>
      intro _
      cases h' with
      | nil =>
        have := Items.last _ _ [] (item_written (cssText := cssText) h hz) white_nil
        simpa [listText] using this
      | cons k k' =>
        have := Items.more _ _ [] _ _ (item_written (cssText := cssText) h hz) (.inl rfl) (ih (by simp))
        simpa [listText] using this
  cases h with
  | nil => exact .inl ⟨white_nil, rfl⟩
  | cons h h' => exact .inr ⟨[], _, rfl, white_nil, key (.cons h h') (by simp)⟩

/-- **C96 (kept)** Every valid `transform` of fewer than 2048 functions is read, and it is written as a valid `transform` of the same functions
with the same numbers, whatever lightningcss does with other text. -/
theorem list_kept (h0 : css [] = none) {l : List Move} (h : ListMeans t l) (hl : l.length < 2048) (hz : z = "0".toList ∨ z = "-0".toList) :
    ∃ x q, ListOf.parseString (list css) t = .ok x q ∧ ListMeans (listText z cssText x) l := by
  obtain ⟨x, q, e, hx⟩ := list_read h0 h hl
  exact ⟨x, q, e, list_written hx hz⟩

/-- **C96 (violated: long lists)** Every valid `transform` of at least 2048 functions panics. -/
theorem long_violated (h0 : css [] = none) {l : List Move} (h : ListMeans t l) (hl : 2048 ≤ l.length) : ListOf.parseString (list css) t = .panic := by
  rcases h with ⟨_, rfl⟩ | ⟨w, x, rfl, hw, h⟩
  · simp at hl
  · obtain ⟨c, u, e, hc, _⟩ := items_head h
    obtain ⟨p, e1, a1⟩ := skip_white (p := Parser.new (w ++ x)) (pre := []) (w := w) (r := x) ⟨rfl, rfl⟩ hw (by rw [e]; exact ends_of hc)
    rw [ListOf.parseString, e1]
    simp only [Res.bind, list, (loop_read h0 h 2048 (.inl rfl) (by simpa using a1)).2 hl]

end Verif.Moves
