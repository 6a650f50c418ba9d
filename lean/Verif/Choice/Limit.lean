import Verif.Choice.Props
import Verif.Clock.Limits

/-!
# Property C94: `min`, `max` and `repeatDur`

A keyword or a clock value, on the model of clock values of `Verif.Clock`.
-/

namespace Verif.Choice

open Verif.Parse Verif.Clock Verif.Number Verif.Boxes

variable {p q : Parser} {pre t w w' z : List Char} {v : ℚ}

/-- animation_timing.rs:269-275, `MinMax::parse`; `none` is `media`. -/
def minMax (p : Parser) : Res (Option ClockValue) :=
  orElse (p.tryParse fun p => (p.expectIdentMatching "media".toList).bind fun _ p => .ok none p)
    fun p => (ClockValue.parse p).bind fun c p => .ok (some c) p

/-- animation_timing.rs:277-287, `MinMax::write_value`. -/
def minMaxText (z : List Char) : Option ClockValue → List Char
  | none => "media".toList
  | some c => c.text z

/-- animation_timing.rs:342-352, `RepeatDur::parse`; `none` is `indefinite`. -/
def repeatDur (p : Parser) : Res (Option ClockValue) :=
  orElse (p.tryParse fun p => (p.expectIdentMatching "indefinite".toList).bind fun _ p => .ok none p)
    fun p => (ClockValue.parse p).bind fun c p => .ok (some c) p

/-- animation_timing.rs:354-364, `RepeatDur::write_value`. -/
def repeatDurText (z : List Char) : Option ClockValue → List Char
  | none => "indefinite".toList
  | some c => c.text z

/-- The grammar of `min` and `max` over a notion of clock value: `none` is the duration of the media. -/
inductive LimitMeans (C : List Char → ℚ → Prop) : List Char → Option ℚ → Prop
  | media : LimitMeans C "media".toList none
  | clock (t : List Char) (v : ℚ) : C t v → LimitMeans C t (some v)

/-- The grammar of `repeatDur` over a notion of clock value: `none` is for ever. -/
inductive RepeatMeans (C : List Char → ℚ → Prop) : List Char → Option ℚ → Prop
  | forever : RepeatMeans C "indefinite".toList none
  | clock (t : List Char) (v : ℚ) : C t v → RepeatMeans C t (some v)

/-- What is written for a clock value that was read is in the grammar exactly if its last number is not between zero and one. -/
theorem got_strict (z : List Char) {c : ClockValue} (hg : Got t v false c) : Clock (c.text z) v ↔ ¬ Tiny t := by
  generalize hm : false = minus at hg
  cases hg with
  | full h m s f minus k1 k2 k3 k4 k5 =>
    subst hm
    exact full_strict z k1 k3 k4 k5
  | half m s f minus k3 k4 k5 =>
    subst hm
    exact half_strict z k3 k4 k5
  | count d f u k minus m k1 k2 k3 k4 k5 =>
    subst hm
    rw [times_norm]
    exact count_strict z k1 k3 k4 k5

/-- A clock value is no keyword, and it is read. -/
theorem limit_read (k : List Char) (hc : Clock t v) (hb : Brief t) : ∃ c q,
    ListOf.parseString (fun p => orElse (p.tryParse fun p => (p.expectIdentMatching k).bind fun _ p => .ok none p)
      fun p => (ClockValue.parse p).bind fun c p => .ok (some c) p) t = .ok (some c) q ∧ Got t v false c := by
  obtain ⟨c0, u0, ht, hd0⟩ := clock_head hc
  have hf0 := digit_facts hd0
  have h0 : At (Parser.new t) [] ([] ++ ([] ++ t)) := ⟨rfl, rfl⟩
  obtain ⟨c, q, e, hq, hg⟩ := clock_read (w := []) (g := []) (minus := false) hc hb (by intro x hx; simp at hx) (.inl ⟨rfl, rfl⟩) h0
  have hp : At (Parser.new t) [] (c0 :: u0) := by rw [ht]; exact ⟨rfl, rfl⟩
  obtain ⟨q', hi, hq'⟩ := expectIdent_spec hp (ascii_head_cons.mpr hf0.2.2.2.2.2.2.2.2.2)
  simp only [hf0.2.1, Bool.false_eq_true, if_false] at hq'
  have hw : (Parser.new t).tryParse (fun p => (p.expectIdentMatching k).bind fun _ p => Res.ok (none : Option ClockValue) p) = .err (Parser.new t) := by
    refine tryParse_err (q := q') ?_ hi
    rw [Parser.expectIdentMatching, hq'.1]
    rfl
  have key : ∃ q, (fun p : Parser => orElse (p.tryParse fun p => (p.expectIdentMatching k).bind fun _ p => .ok none p)
      fun p => (ClockValue.parse p).bind fun c p => .ok (some c) p) (Parser.new (c0 :: u0)) = .ok (some c) q ∧ At q (c0 :: u0) [] := by
    rw [← ht]
    refine ⟨q, ?_, by simpa using hq⟩
    dsimp only
    rw [hw]
    simp only [orElse, e, Res.bind]
  obtain ⟨q, e⟩ := done_new (T := fun p => orElse (p.tryParse fun p => (p.expectIdentMatching k).bind fun _ p => .ok none p)
    fun p => (ClockValue.parse p).bind fun c p => .ok (some c) p) (a := some c) hf0.1 key
  exact ⟨c, q, by rw [ht]; exact e, hg⟩

/-- **C94 (min and max)** Every valid `min` or `max` without numbers of more than six digits is read, and it is written with the same
meaning for readers that do not insist on the digits before a point. -/
theorem limit_kept {m : Option ℚ} (z : List Char) (h : LimitMeans Clock t m) (hb : Brief t) :
    ∃ x q, ListOf.parseString minMax t = .ok x q ∧ LimitMeans Loose (minMaxText z x) m := by
  cases h with
  | media =>
    have := parse_done (T := minMax) (P := fun x => x = none) (w := []) (x := "media".toList ++ []) white_nil (ends_of (c := 'm') (by decide)) ?_
    · obtain ⟨_, q, e, rfl⟩ := this
      exact ⟨none, q, by simpa using e, .media⟩
    intro p pre hp
    obtain ⟨q, _, a, e⟩ := ident_at (c := 'm') (m := ['e', 'd', 'i', 'a']) (k := "media".toList) (r := []) hp (by decide) (by decide) (by decide) (ends_white white_nil)
    rw [if_pos (by decide)] at e
    refine ⟨none, q, _, [], ?_, a, white_nil, rfl⟩
    rw [minMax, tryParse_ok (a := none) (q := q) (by rw [e]; rfl)]
    rfl
  | clock _ v hc =>
    obtain ⟨c, q, e, hg⟩ := limit_read "media".toList hc hb
    exact ⟨some c, q, e, .clock _ _ (got_plus z hg).1⟩

/-- **C94 (repeatDur)** The same for `repeatDur`. -/
theorem repeat_kept {m : Option ℚ} (z : List Char) (h : RepeatMeans Clock t m) (hb : Brief t) :
    ∃ x q, ListOf.parseString repeatDur t = .ok x q ∧ RepeatMeans Loose (repeatDurText z x) m := by
  cases h with
  | forever =>
    have := parse_done (T := repeatDur) (P := fun x => x = none) (w := []) (x := "indefinite".toList ++ []) white_nil (ends_of (c := 'i') (by decide)) ?_
    · obtain ⟨_, q, e, rfl⟩ := this
      exact ⟨none, q, by simpa using e, .forever⟩
    intro p pre hp
    obtain ⟨q, _, a, e⟩ := ident_at (c := 'i') (m := ['n', 'd', 'e', 'f', 'i', 'n', 'i', 't', 'e']) (k := "indefinite".toList) (r := []) hp (by decide) (by decide) (by decide) (ends_white white_nil)
    rw [if_pos (by decide)] at e
    refine ⟨none, q, _, [], ?_, a, white_nil, rfl⟩
    rw [repeatDur, tryParse_ok (a := none) (q := q) (by rw [e]; rfl)]
    rfl
  | clock _ v hc =>
    obtain ⟨c, q, e, hg⟩ := limit_read "indefinite".toList hc hb
    exact ⟨some c, q, e, .clock _ _ (got_plus z hg).1⟩

/-- **C94 (min, max and repeatDur, exactly when)** What is written for a clock value is in the grammar again, with the same number of
seconds, exactly if its last number is not between zero and one. -/
theorem limit_strict_iff (z : List Char) (hc : Clock t v) (hb : Brief t) :
    (∃ c q, ListOf.parseString minMax t = .ok (some c) q ∧ (Clock (minMaxText z (some c)) v ↔ ¬ Tiny t)) ∧
      ∃ c q, ListOf.parseString repeatDur t = .ok (some c) q ∧ (Clock (repeatDurText z (some c)) v ↔ ¬ Tiny t) := by
  obtain ⟨c, q, e, hg⟩ := limit_read "media".toList hc hb
  obtain ⟨c', q', e', hg'⟩ := limit_read "indefinite".toList hc hb
  exact ⟨⟨c, q, e, got_strict z hg⟩, c', q', e', got_strict z hg'⟩

/-! ## Examples -/

example : ∃ x q, ListOf.parseString minMax "00:30".toList = .ok x q ∧ LimitMeans Loose (minMaxText "0".toList x) (some 30) :=
  limit_kept _ (.clock _ _ clock_thirty) (brief_short (by decide))

/-- What is written for what is read. -/
def rewritten (T : Parser → Res (Option ClockValue)) (w : Option ClockValue → List Char) (t : String) : Option (List Char) :=
  match ListOf.parseString T t.toList with
  | .ok x _ => some (w x)
  | _ => none

example : rewritten repeatDur (repeatDurText "0".toList) "0.5s" = some ".5".toList ∧ rewritten minMax (minMaxText "0".toList) "0:30" = some "00:30".toList ∧
    rewritten minMax (minMaxText "0".toList) " media " = some "media".toList ∧ rewritten repeatDur (repeatDurText "0".toList) "indefinite" = some "indefinite".toList := by
  decide +kernel

/-- The keyword of one is not a keyword of the other. -/
example : rewritten minMax (minMaxText "0".toList) "indefinite" = none ∧ rewritten repeatDur (repeatDurText "0".toList) "media" = none := by
  decide +kernel

end Verif.Choice
