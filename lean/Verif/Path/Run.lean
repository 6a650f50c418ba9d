import Verif.Path.Lemmas

/-! # Reading path data: the loop -/

namespace Verif.Path

open Verif.Parse Verif.Number

variable {p q : Parser} {pre rest : List Char} {finite : List Char → Bool} {allow : Bool}

theorem drop_suffix (f : Char → Bool) (l : List Char) : ∃ a, l = a ++ l.dropWhile f :=
  ⟨l.takeWhile f, by simp⟩

theorem afterSep_suffix (l : List Char) : ∃ a, l = a ++ afterSep l := by
  obtain ⟨a, ha⟩ := drop_suffix isWhitespace l
  obtain ⟨b, hb⟩ := drop_suffix (· == ',') (l.dropWhile isWhitespace)
  obtain ⟨c, hc⟩ := drop_suffix isWhitespace ((l.dropWhile isWhitespace).dropWhile (· == ','))
  exact ⟨a ++ b ++ c, by rw [List.append_assoc, List.append_assoc, afterSep, ← hc, ← hb, ← ha]⟩

theorem isNumber_ne {t : List Char} (h : IsNumber t) : t ≠ [] := by
  rintro rfl
  have := (rustFloat_iff []).mpr h
  simp [rustFloat, accept] at this

theorem ReadArgs.suffix {fs : List Bool} {l z : List Char} {ts : List (List Char)} (h : ReadArgs finite fs l ts z) :
    ∃ a, l = a ++ z ∧ (fs ≠ [] → a ≠ []) := by
  induction h with
  | nil l => exact ⟨[], rfl, fun h => absurd rfl h⟩
  | num e hl hf hc hz ih =>
    rename_i l t r z fs ts
    obtain ⟨a, ha, _⟩ := ih
    obtain ⟨b, hb⟩ := afterSep_suffix r
    obtain ⟨c, hc⟩ := drop_suffix isWhitespace l
    refine ⟨c ++ t ++ b ++ a, ?_, fun _ h0 => ?_⟩
    · conv => lhs; rw [hc, e, hb, ha]
      simp
    · simp at h0; exact isNumber_ne hl.1 h0.2.1
  | flag hc hz ih =>
    rename_i c r z fs ts
    obtain ⟨a, ha, _⟩ := ih
    obtain ⟨b, hb⟩ := afterSep_suffix r
    refine ⟨c :: b ++ a, ?_, by simp⟩
    conv => lhs; rw [hb, ha]
    simp

theorem shape_nil {k : Kind} (h : k.shape = []) : k = .closePath := by cases k <;> simp [Kind.shape] at h ⊢

/-- Every command takes something off the text, except for a close-path without a letter. -/
theorem Step.suffix {o : Option Kind} {l z : List Char} {d : Data (List Char)} (h : Step finite allow o l d z) :
    ∃ a, l = a ++ z ∧ (a = [] → o = some .closePath ∧ NoLetter (afterSep l) ∧ z = afterSep l) := by
  cases h with
  | @first c _ _ _ _ _ e hk hm hz =>
    obtain ⟨a, ha, _⟩ := hz.suffix
    obtain ⟨b, hb⟩ := drop_suffix isWhitespace l
    exact ⟨b ++ c :: a, by conv => lhs; rw [hb, e, ha]
                           simp, by simp⟩
  | start hm hno hz =>
    obtain ⟨a, ha, hne⟩ := hz.suffix
    obtain ⟨b, hb⟩ := drop_suffix isWhitespace l
    refine ⟨b ++ a, by conv => lhs; rw [hb, ha]
                       simp, fun h0 => ?_⟩
    simp at h0
    exact absurd h0.2 (hne (by simp [Kind.shape]))
  | @letter c _ _ _ _ _ _ e hk hm hz =>
    obtain ⟨a, ha, _⟩ := hz.suffix
    obtain ⟨b, hb⟩ := afterSep_suffix l
    exact ⟨b ++ c :: a, by conv => lhs; rw [hb, e, ha]
                           simp, by simp⟩
  | @same c _ _ _ _ _ e hk hz =>
    obtain ⟨a, ha, _⟩ := hz.suffix
    obtain ⟨b, hb⟩ := afterSep_suffix l
    exact ⟨b ++ c :: a, by conv => lhs; rw [hb, e, ha]
                           simp, by simp⟩
  | @cont _ _ n _ hno hz =>
    obtain ⟨a, ha, hne⟩ := hz.suffix
    obtain ⟨b, hb⟩ := afterSep_suffix l
    refine ⟨b ++ a, by conv => lhs; rw [hb, ha]
                       simp, fun h0 => ?_⟩
    simp at h0
    by_cases hs : n.shape = []
    · exact ⟨by rw [shape_nil hs], hno, by rw [ha, h0.2]; rfl⟩
    · exact absurd h0.2 (hne hs)

theorem Step.noEnd {o : Option Kind} {l z : List Char} {d : Data (List Char)} (h : Step finite allow o l d z) (hn : NoEnd l) :
    NoEnd z := by
  obtain ⟨a, ha, _⟩ := h.suffix
  rw [ha] at hn
  exact hn.suffix

/-- The command that goes on after a list of commands. -/
def contOf (list : List (Data (List Char))) : Option Kind := list.getLast?.map fun d => d.id.cont

theorem iteration_iff (list : List (Data (List Char))) (h : At p pre rest) (hn : NoEnd rest) (d : Data (List Char)) (q : Parser) :
    iteration finite allow list p = .ok d q ↔ ∃ z, Step finite allow (contOf list) rest d z ∧ Moved p q z := by
  rcases list.eq_nil_or_concat with rfl | ⟨l, last, rfl⟩
  · exact iteration_first allow h hn d q
  · have := iteration_next (finite := finite) allow l last h hn d q
    simpa [contOf] using this

/-- Reading commands until the text ends. -/
inductive Run (finite : List Char → Bool) (allow : Bool) : Option Kind → List Char → List (Data (List Char)) → Prop
  | done (o : Option Kind) : Run finite allow o [] []
  | step {o : Option Kind} {l z : List Char} {d : Data (List Char)} {ds : List (Data (List Char))} : l ≠ [] →
      Step finite allow o l d z → Run finite allow (some d.id.cont) z ds → Run finite allow o l (d :: ds)

theorem len_cases (h : At p pre rest) : p.len ≠ none ∧ (p.len = some 0 ↔ rest = []) := by
  rw [h.len]
  refine ⟨by simp, ?_⟩
  cases rest with
  | nil => simp [width_nil]
  | cons c l => have := size_pos c; simp [width_cons]; omega

theorem extend_iff (fuel : Nat) : ∀ {list : List (Data (List Char))} {p : Parser} {pre rest : List Char}, At p pre rest →
    NoEnd rest → ∀ (L : List (Data (List Char))) (q : Parser),
    parseExtend finite allow fuel list p = some (.ok L q) ↔
      ∃ ds, ds.length < fuel ∧ Run finite allow (contOf list) rest ds ∧ L = list ++ ds ∧ Moved p q [] := by
  induction fuel with
  | zero => intro list p pre rest h hn L q; simp [parseExtend]
  | succ n ih =>
    intro list p pre rest h hn L q
    have hl := len_cases h
    rw [parseExtend, if_neg hl.1]
    by_cases h0 : rest = []
    · rw [if_pos (hl.2.mpr h0)]
      subst h0
      simp only [Option.some.injEq, Res.ok.injEq]
      constructor
      · rintro ⟨rfl, rfl⟩
        exact ⟨[], by simp, .done _, by simp, rfl, _, h⟩
      · rintro ⟨ds, _, hr, rfl, hm⟩
        cases hr with
        | done => exact ⟨by simp, Moved.unique ⟨rfl, _, h⟩ hm⟩
        | step hne _ _ => exact absurd rfl hne
    · rw [if_neg (fun h1 => h0 (hl.2.mp h1))]
      constructor
      · intro hc
        cases hi : iteration finite allow list p with
        | err q => rw [hi] at hc; simp [continue'] at hc
        | panic => rw [hi] at hc; simp [continue'] at hc
        | ok d q1 =>
          rw [hi] at hc
          simp only [continue'] at hc
          obtain ⟨z, hs, hm⟩ := (iteration_iff list h hn d q1).mp hi
          obtain ⟨a, ha⟩ := hm.2
          obtain ⟨ds, hlen, hr, rfl, hmq⟩ := (ih ha (hs.noEnd hn) L q).mp hc
          refine ⟨d :: ds, by simp; omega, .step h0 hs ?_, by simp, hm.trans hmq⟩
          simpa [contOf] using hr
      · rintro ⟨ds, hlen, hr, rfl, hm⟩
        cases hr with
        | done => exact absurd rfl h0
        | step hne hs hr =>
          rename_i z d ds
          obtain ⟨a, ha, _⟩ := hs.suffix
          have hex : ∃ q1, Moved p q1 z := by
            rw [ha] at h
            exact ⟨⟨p.input, p.cursor + width a⟩, rfl, _, h.moved⟩
          obtain ⟨q1, m1⟩ := hex
          rw [(iteration_iff list h hn d q1).mpr ⟨z, hs, m1⟩]
          simp only [continue']
          obtain ⟨b, hb⟩ := m1.2
          refine (ih hb (hs.noEnd hn) _ q).mpr ⟨ds, by simp at hlen; omega, ?_, by simp, hm.1.trans m1.1.symm, hm.2⟩
          simpa [contOf] using hr

/-- The commands read so far and what is left of the text. -/
inductive Reach (finite : List Char → Bool) (allow : Bool) : Option Kind → List Char → Option Kind → List Char → Prop
  | here (o : Option Kind) (l : List Char) : Reach finite allow o l o l
  | step {o o' : Option Kind} {l z l' : List Char} {d : Data (List Char)} : l ≠ [] → Step finite allow o l d z →
      Reach finite allow (some d.id.cont) z o' l' → Reach finite allow o l o' l'

/-- A state in which the loop makes no progress. -/
def Spins (o : Option Kind) (l : List Char) : Prop := o = some .closePath ∧ ∃ c t, afterSep l = c :: t ∧ ofLetter c = none ∧ c ≠ ','

theorem dropWhile_idem (f : Char → Bool) (l : List Char) : (l.dropWhile f).dropWhile f = l.dropWhile f := by
  induction l with
  | nil => rfl
  | cons a l ih =>
    by_cases h : f a = true
    · simp [h, ih]
    · simp [h]

theorem afterSep_id {c : Char} {t l : List Char} (h : afterSep l = c :: t) (hc : c ≠ ',') : afterSep (c :: t) = c :: t := by
  have hw : isWhitespace c = false := by
    have := List.head?_dropWhile_not isWhitespace ((l.dropWhile isWhitespace).dropWhile (· == ','))
    rw [afterSep] at h
    rw [h] at this
    simpa using this
  simp [afterSep, hw, hc]

/-- In such a state the loop goes on for ever. -/
theorem spins_forever (fuel : Nat) : ∀ {list : List (Data (List Char))} {p : Parser} {pre rest : List Char}, At p pre rest →
    NoEnd rest → Spins (contOf list) rest → parseExtend finite allow fuel list p = none := by
  induction fuel with
  | zero => intros; rfl
  | succ n ih =>
    intro list p pre rest h hn hs
    obtain ⟨hk, c, t, he, hc, hcomma⟩ := hs
    have hl := len_cases h
    have h0 : rest ≠ [] := by rintro rfl; simp [afterSep] at he
    rw [parseExtend, if_neg hl.1, if_neg (fun h1 => h0 (hl.2.mp h1))]
    have hstep : Step finite allow (contOf list) rest (.implicit (.plain .closePath [])) (c :: t) := by
      rw [hk]
      exact .cont (fun c' t' e => by rw [he] at e; simp at e; rw [← e.1]; exact hc) (by rw [he]; exact .nil _)
    obtain ⟨a, ha, _⟩ := hstep.suffix
    have hex : ∃ q1, Moved p q1 (c :: t) := by
      rw [ha] at h
      exact ⟨⟨p.input, p.cursor + width a⟩, rfl, _, h.moved⟩
    obtain ⟨q1, m1⟩ := hex
    rw [(iteration_iff list h hn _ q1).mpr ⟨_, hstep, m1⟩]
    simp only [continue']
    obtain ⟨b, hb⟩ := m1.2
    refine ih hb (hstep.noEnd hn) ⟨by simp [contOf, Data.id, ID.cont, Kind.nextImplicit], c, t, afterSep_id he hcomma, hc, hcomma⟩

theorem reach_spins {o o' : Option Kind} {l l' : List Char} (hr : Reach finite allow o l o' l') (hs : Spins o' l') :
    ∀ (fuel : Nat) {list : List (Data (List Char))} {p : Parser} {pre : List Char}, At p pre l →
    NoEnd l → contOf list = o → parseExtend finite allow fuel list p = none := by
  induction hr with
  | here o l => intro fuel list p pre h hn ho; exact spins_forever fuel h hn (by rw [ho]; exact hs)
  | step hne hst hr ih =>
    rename_i o o' l z l' d
    intro fuel list p pre h hn ho
    cases fuel with
    | zero => rfl
    | succ n =>
      have hl := len_cases h
      rw [parseExtend, if_neg hl.1, if_neg (fun h1 => hne (hl.2.mp h1))]
      obtain ⟨a, ha, _⟩ := hst.suffix
      have hex : ∃ q1, Moved p q1 z := by
        rw [ha] at h
        exact ⟨⟨p.input, p.cursor + width a⟩, rfl, _, h.moved⟩
      obtain ⟨q1, m1⟩ := hex
      rw [(iteration_iff list h hn _ q1).mpr ⟨_, by rw [ho]; exact hst, m1⟩]
      simp only [continue']
      obtain ⟨b, hb⟩ := m1.2
      exact ih hs n hb (hst.noEnd hn) (by simp [contOf])

theorem afterSep_comma (t : List Char) : (afterSep (',' :: t)).length ≤ t.length := by
  have h1 : afterSep (',' :: t) = (t.dropWhile (· == ',')).dropWhile isWhitespace := by
    have : isWhitespace ',' = false := by decide
    simp [afterSep, this]
  rw [h1]
  exact Nat.le_trans (List.dropWhile_suffix _).length_le (List.dropWhile_suffix _).length_le

/-- Otherwise it comes to an end. -/
theorem halts (m : Nat) : ∀ {list : List (Data (List Char))} {p : Parser} {pre rest : List Char}, At p pre rest → NoEnd rest →
    rest.length ≤ m → (∀ o' l', Reach finite allow (contOf list) rest o' l' → ¬ Spins o' l') →
    ∃ fuel r, parseExtend finite allow fuel list p = some r := by
  induction m with
  | zero =>
    intro list p pre rest h hn hm hsp
    have hl := len_cases h
    exact ⟨1, _, by rw [parseExtend, if_neg hl.1, if_pos (hl.2.mpr (List.length_eq_zero_iff.mp (by omega)))]⟩
  | succ m ih =>
    intro list p pre rest h hn hm hsp
    have hl := len_cases h
    by_cases h0 : rest = []
    · exact ⟨1, _, by rw [parseExtend, if_neg hl.1, if_pos (hl.2.mpr h0)]⟩
    cases hi : iteration finite allow list p with
    | err q => exact ⟨1, _, by rw [parseExtend, if_neg hl.1, if_neg (fun h1 => h0 (hl.2.mp h1)), hi]; rfl⟩
    | panic => exact ⟨1, _, by rw [parseExtend, if_neg hl.1, if_neg (fun h1 => h0 (hl.2.mp h1)), hi]; rfl⟩
    | ok d q1 =>
      obtain ⟨z, hs, hmv⟩ := (iteration_iff list h hn d q1).mp hi
      obtain ⟨a, ha⟩ := hmv.2
      obtain ⟨x, hx, hx0⟩ := hs.suffix
      have hcont : contOf (list ++ [d]) = some d.id.cont := by simp [contOf]
      have hreach : ∀ o' l', Reach finite allow (some d.id.cont) z o' l' → ¬ Spins o' l' :=
        fun o' l' hr => hsp o' l' (.step h0 hs hr)
      by_cases hxe : x = []
      · obtain ⟨ho, hno, hz⟩ := hx0 hxe
        subst hxe
        simp at hx
        subst hx
        have hspin := hsp _ _ (.here _ _)
        cases hz' : rest with
        | nil => exact absurd hz' h0
        | cons c t =>
          have hcomma : c = ',' := by
            refine Decidable.byContradiction fun hc => hspin ⟨ho, c, t, by rw [← hz, hz'], hno c t (by rw [← hz, hz']), hc⟩
          subst hcomma
          have := afterSep_comma t
          rw [← hz', ← hz, hz'] at this
          simp at this
          omega
      · have hlen : z.length ≤ m := by
          have : 0 < x.length := List.length_pos_iff.mpr hxe
          rw [hx] at hm
          simp at hm
          omega
        obtain ⟨fuel, r, hf⟩ := ih (list := list ++ [d]) ha (hs.noEnd hn) hlen (by rw [hcont]; exact hreach)
        exact ⟨fuel + 1, r, by rw [parseExtend, if_neg hl.1, if_neg (fun h1 => h0 (hl.2.mp h1)), hi]; exact hf⟩

end Verif.Path
