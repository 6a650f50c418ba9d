import Verif.Keywords.Props

/-! # C91: `font-variant` -/

namespace Verif.Keywords

open Verif.Parse

theorem views_enum : ∀ ts : List Table, Views (ts.map parseEnum) (ts.map gEnum)
  | [] => .nil
  | t :: ts => .cons (view_enum t) (views_enum ts)

def gComp (ts : List Table) : List Char → Out Comp := gFillAll false (ts.map gEnum) (ts.length + 1) (ts.map fun _ => none)

theorem view_comp (ts : List Table) : View (parseComp ts) (gComp ts) := view_fillAll false (views_enum ts) _ _

def gOne (t : Table) (r : List Char) : Out Comp := (gEnum t r).bind fun i r => .ok [some i] r

theorem view_one (t : Table) : View (parseOne t) (gOne t) := view_bind (view_enum t) fun i => view_ok _

def gParsers : List (List Char → Out Comp) :=
  [gComp ligatures, gOne tFontVariantCaps, gComp numeric, gComp eastAsian, gOne tFontVariantPosition, gOne tFontVariantEmoji]

theorem views_parsers : Views compParsers gParsers :=
  .cons (view_comp _) (.cons (view_one _) (.cons (view_comp _) (.cons (view_comp _) (.cons (view_one _) (.cons (view_one _) .nil)))))

def gKey (r : List Char) : Out FontVariant :=
  (gIdent r).bind fun w r =>
    if w = "normal".toList then .ok .normal r else if w = "none".toList then .ok .disabled r else .err

def gComps (r : List Char) : Out FontVariant :=
  (gFillAll true gParsers 7 (groups.map fun _ => none) r).bind fun vs r => .ok (.comps (withDefaults groups vs)) r

theorem view_font : View parseFontVariant (gOr gKey gComps) := by
  refine view_or (view_bind view_ident fun w => ?_) (view_bind (view_fillAll true views_parsers 7 _) fun vs => view_ok _)
  by_cases h1 : w = "normal".toList
  · simp only [h1, if_true]; exact view_ok _
  · by_cases h2 : w = "none".toList
    · simp only [h1, h2, if_true, if_false]; exact view_ok _
    · simp only [h1, h2, if_false]; exact view_err

/-! ## One component -/

/-- The keywords of the fields. -/
def compWords : List Table → Comp → List Word
  | t :: ts, v :: vs => (match v with | none => [] | some i => [writeEnum t i]) ++ compWords ts vs
  | _, _ => []

/-- No field is given. -/
def emptyComp (ts : List Table) : Comp := ts.map fun _ => none

theorem compWords_empty (ts : List Table) : compWords ts (emptyComp ts) = [] := by
  induction ts with
  | nil => rfl
  | cons t ts ih => simpa [compWords, emptyComp] using ih

/-- One field is filled. -/
theorem fill_comp : ∀ (ts : List Table) (r : List Char) (o : Option Comp) (r' : List Char), (∀ t ∈ ts, Keys t) →
    gFill (ts.map gEnum) (emptyComp ts) r = .ok o r' →
      (o = none ∧ r' = r) ∨ ∃ v k, o = some v ∧ compWords ts v = [k] ∧ (∃ t ∈ ts, k ∈ t) ∧ v.length = ts.length ∧
        IsKey k ∧ NoName r' ∧ r = k ++ r'
  | [], r, o, r', _, h => by cases h; exact .inl ⟨rfl, rfl⟩
  | t :: ts, r, o, r', hk, h => by
    simp only [List.map_cons, emptyComp, gFill] at h
    cases hg : gEnum t r with
    | ok i r1 =>
      simp only [hg] at h
      cases h
      obtain ⟨h1, h2, h3, _⟩ := gEnum_ok hg
      have hm := List.mem_of_getElem? h3
      refine .inr ⟨_, writeEnum t i, rfl, ?_, ⟨t, by simp, hm⟩, by simp, hk t (by simp) _ hm, h2, h1⟩
      simp only [compWords]
      have := compWords_empty ts
      rw [emptyComp] at this
      rw [this]; rfl
    | err =>
      simp only [hg] at h
      cases hf : gFill (ts.map gEnum) (emptyComp ts) r with
      | ok o' r1 =>
        have h0 : gFill (ts.map gEnum) (ts.map fun _ => none) r = .ok o' r1 := hf
        simp only [h0, Out.bind] at h
        cases h
        rcases fill_comp ts r _ _ (fun t ht => hk t (by simp [ht])) hf with ⟨rfl, rfl⟩ | ⟨v, k, rfl, h1, ⟨t', h2, h2'⟩, h3, h4, h5, h6⟩
        · exact .inl ⟨rfl, rfl⟩
        · exact .inr ⟨none :: v, k, rfl, by simpa [compWords] using h1, ⟨t', by simp [h2], h2'⟩, by simp [h3], h4, h5, h6⟩
      | err =>
        have h0 : gFill (ts.map gEnum) (ts.map fun _ => none) r = .err := hf
        simp [h0, Out.bind] at h
      | panic =>
        have h0 : gFill (ts.map gEnum) (ts.map fun _ => none) r = .panic := hf
        simp [h0, Out.bind] at h
    | panic => simp [hg] at h

/-- Without a name ahead no field is filled. -/
theorem fill_noName : ∀ (ts : List Table) (vs : Comp) (r : List Char) (o : Option Comp) (r' : List Char), NoName r →
    gFill (ts.map gEnum) vs r = .ok o r' → o = none ∧ r' = r
  | [], vs, r, o, r', _, h => by cases h; exact ⟨rfl, rfl⟩
  | t :: ts, [], r, o, r', _, h => by cases h; exact ⟨rfl, rfl⟩
  | t :: ts, some b :: vs, r, o, r', hn, h => by
    simp only [List.map_cons, gFill] at h
    cases hf : gFill (ts.map gEnum) vs r with
    | ok o' r1 =>
      simp only [hf, Out.bind] at h
      cases h
      obtain ⟨rfl, rfl⟩ := fill_noName ts vs r _ _ hn hf
      exact ⟨rfl, rfl⟩
    | err => simp [hf, Out.bind] at h
    | panic => simp [hf, Out.bind] at h
  | t :: ts, none :: vs, r, o, r', hn, h => by
    simp only [List.map_cons, gFill] at h
    cases hg : gEnum t r with
    | ok i r1 => exact absurd hg (gEnum_noName hn)
    | err =>
      simp only [hg] at h
      cases hf : gFill (ts.map gEnum) vs r with
      | ok o' r1 =>
        simp only [hf, Out.bind] at h
        cases h
        obtain ⟨rfl, rfl⟩ := fill_noName ts vs r _ _ hn hf
        exact ⟨rfl, rfl⟩
      | err => simp [hf, Out.bind] at h
      | panic => simp [hf, Out.bind] at h
    | panic => simp [hg] at h

/-- A component takes no word or one. -/
theorem comp_ok {ts : List Table} (hk : ∀ t ∈ ts, Keys t) {r r' : List Char} {v : Comp} (h : gComp ts r = .ok v r') :
    (v = emptyComp ts ∧ r' = r) ∨ ∃ k, compWords ts v = [k] ∧ (∃ t ∈ ts, k ∈ t) ∧ v.length = ts.length ∧ Chain r [k] r' := by
  unfold gComp at h
  simp only [gFillAll, Bool.false_eq_true, if_false] at h
  cases hf : gFill (ts.map gEnum) (emptyComp ts) r with
  | ok o r1 =>
    have h0 : gFill (ts.map gEnum) (ts.map fun _ => none) r = .ok o r1 := hf
    simp only [h0, Out.bind] at h
    rcases fill_comp ts r _ _ hk hf with ⟨rfl, rfl⟩ | ⟨v', k, rfl, h1, h2, h3, h4, h5, h6⟩
    · simp only at h
      cases h
      exact .inl ⟨rfl, rfl⟩
    · simp only at h
      cases ts with
      | nil => cases hf
      | cons t ts =>
        simp only [List.length_cons, gFillAll, Bool.false_eq_true, if_false] at h
        cases hf2 : gFill ((t :: ts).map gEnum) v' r1 with
        | ok o2 r2 =>
          simp only [hf2, Out.bind] at h
          obtain ⟨rfl, rfl⟩ := fill_noName _ _ _ _ _ h5 hf2
          simp only at h
          cases h
          exact .inr ⟨k, h1, h2, h3, h6 ▸ .key h4 h5 .nil⟩
        | err => simp only [hf2, Out.bind] at h; cases h
        | panic => simp only [hf2, Out.bind] at h; cases h
  | err =>
    have h0 : gFill (ts.map gEnum) (ts.map fun _ => none) r = .err := hf
    simp [h0, Out.bind] at h
  | panic =>
    have h0 : gFill (ts.map gEnum) (ts.map fun _ => none) r = .panic := hf
    simp [h0, Out.bind] at h

theorem one_ok {t : Table} (hk : Keys t) {r r' : List Char} {v : Comp} (h : gOne t r = .ok v r') :
    ∃ k, compWords [t] v = [k] ∧ (∃ t' ∈ [t], k ∈ t') ∧ v.length = 1 ∧ Chain r [k] r' := by
  unfold gOne at h
  cases hg : gEnum t r with
  | ok i r1 =>
    simp only [hg, Out.bind] at h
    cases h
    obtain ⟨h1, h2, h3, _⟩ := gEnum_ok hg
    have hm := List.mem_of_getElem? h3
    exact ⟨writeEnum t i, by simp [compWords], ⟨t, by simp, hm⟩, rfl, h1 ▸ .key (hk _ hm) h2 .nil⟩
  | err => simp [hg, Out.bind] at h
  | panic => simp [hg, Out.bind] at h

/-- A function reads no word or one word of the tables. -/
def Takes (ts : List Table) (g : List Char → Out Comp) : Prop := ∀ r v r', g r = .ok v r' →
  (v = emptyComp ts ∧ r' = r) ∨ ∃ k, compWords ts v = [k] ∧ (∃ t ∈ ts, k ∈ t) ∧ v.length = ts.length ∧ Chain r [k] r'

/-- The functions read words of the tables, one by one. -/
inductive TakesAll : List (List Table) → List (List Char → Out Comp) → Prop
  | nil : TakesAll [] []
  | cons {ts g tss gs} : Takes ts g → TakesAll tss gs → TakesAll (ts :: tss) (g :: gs)

theorem groups_keys : ∀ g ∈ groups, ∀ t ∈ g, Keys t := by decide +kernel

theorem takes_parsers : TakesAll groups gParsers := by
  have h := groups_keys
  have h1 : Keys tFontVariantCaps := by decide +kernel
  have h2 : Keys tFontVariantPosition := by decide +kernel
  have h3 : Keys tFontVariantEmoji := by decide +kernel
  exact .cons (fun r v r' => comp_ok (h _ (by simp [groups]))) (.cons (fun r v r' e => .inr (one_ok h1 e))
    (.cons (fun r v r' => comp_ok (h _ (by simp [groups]))) (.cons (fun r v r' => comp_ok (h _ (by simp [groups])))
    (.cons (fun r v r' e => .inr (one_ok h2 e)) (.cons (fun r v r' e => .inr (one_ok h3 e)) .nil)))))

/-! ## All components -/

/-- The words of all components. -/
def allWords : List (List Table) → List (Option Comp) → List Word
  | ts :: tss, v :: vs => (match v with | none => [] | some c => compWords ts c) ++ allWords tss vs
  | _, _ => []

/-- Each component has no word or one of its own words. -/
inductive Single : List (List Table) → List (Option Comp) → Prop
  | nil : Single [] []
  | no {ts tss vs} : Single tss vs → Single (ts :: tss) (none :: vs)
  | empty {ts tss vs} : Single tss vs → Single (ts :: tss) (some (emptyComp ts) :: vs)
  | one {ts tss vs c k} : compWords ts c = [k] → (∃ t ∈ ts, k ∈ t) → c.length = ts.length → Single tss vs →
      Single (ts :: tss) (some c :: vs)

theorem fill_all {tss : List (List Table)} {gs : List (List Char → Out Comp)} (ht : TakesAll tss gs) :
    ∀ vs r o r', Single tss vs → gFill gs vs r = .ok o r' →
      (o = none ∧ r' = r) ∨ ∃ vs' ks, o = some vs' ∧ Single tss vs' ∧ Chain r ks r' ∧ (allWords tss vs').Perm (allWords tss vs ++ ks) := by
  induction ht with
  | nil =>
    intro vs r o r' hs h
    cases hs
    cases h
    exact .inl ⟨rfl, rfl⟩
  | @cons ts g tss gs hg _ ih =>
    have step : ∀ (w : Option Comp) vs r o r', Single tss vs → (∀ vs', Single tss vs' → Single (ts :: tss) (w :: vs')) →
        ((gFill gs vs r).bind fun o r => .ok (o.map (w :: ·)) r) = .ok o r' →
        (o = none ∧ r' = r) ∨ ∃ vs' ks, o = some vs' ∧ Single (ts :: tss) vs' ∧ Chain r ks r' ∧
          (allWords (ts :: tss) vs').Perm (allWords (ts :: tss) (w :: vs) ++ ks) := by
      intro w vs r o r' hs hw h
      cases hf : gFill gs vs r with
      | ok o' r1 =>
        simp only [hf, Out.bind] at h
        cases h
        rcases ih vs r _ _ hs hf with ⟨rfl, rfl⟩ | ⟨vs', ks, rfl, h1, h2, h3⟩
        · exact .inl ⟨rfl, rfl⟩
        · refine .inr ⟨w :: vs', ks, rfl, hw _ h1, h2, ?_⟩
          simp only [allWords, List.append_assoc]
          exact h3.append_left _
      | err => simp [hf, Out.bind] at h
      | panic => simp [hf, Out.bind] at h
    intro vs r o r' hs h
    cases hs with
    | no hs =>
      simp only [gFill] at h
      cases hr : g r with
      | ok c r1 =>
        simp only [hr] at h
        cases h
        rcases hg _ _ _ hr with ⟨rfl, rfl⟩ | ⟨k, h1, h2, h3, h4⟩
        · exact .inr ⟨_, [], rfl, .empty hs, .nil, by simp [allWords, compWords_empty]⟩
        · refine .inr ⟨_, [k], rfl, .one h1 h2 h3 hs, h4, ?_⟩
          simp only [allWords, h1, List.nil_append]
          exact (List.perm_append_comm (l₁ := [k]))
      | err =>
        simp only [hr] at h
        exact step none _ _ _ _ hs (fun _ h => .no h) h
      | panic => simp [hr] at h
    | empty hs =>
      simp only [gFill] at h
      exact step _ _ _ _ _ hs (fun _ h => .empty h) h
    | one h1 h2 h3 hs =>
      simp only [gFill] at h
      exact step _ _ _ _ _ hs (fun _ h => .one h1 h2 h3 h) h

theorem fillAll_all {tss : List (List Table)} {gs : List (List Char → Out Comp)} (ht : TakesAll tss gs) :
    ∀ n vs r vs' r', Single tss vs → gFillAll true gs n vs r = .ok vs' r' →
      Single tss vs' ∧ ∃ ks, Chain r ks r' ∧ (allWords tss vs').Perm (allWords tss vs ++ ks)
  | 0, vs, r, vs', r', hs, h => by cases h
  | n + 1, vs, r, vs', r', hs, h => by
    simp only [gFillAll, if_true] at h
    cases hf : gFill gs vs (r.dropWhile isWhitespace) with
    | ok o r1 =>
      simp only [hf, Out.bind] at h
      rcases fill_all ht _ _ _ _ hs hf with ⟨rfl, rfl⟩ | ⟨vs2, ks, rfl, h1, h2, h3⟩
      · simp only at h
        cases h
        exact ⟨hs, [], chain_white, by simp⟩
      · simp only at h
        obtain ⟨h4, ks', h5, h6⟩ := fillAll_all ht n _ _ _ _ h1 h
        refine ⟨h4, ks ++ ks', chain_white.trans (h2.trans h5), ?_⟩
        exact h6.trans (by rw [← List.append_assoc]; exact h3.append_right _)
    | err => simp [hf, Out.bind] at h
    | panic => simp [hf, Out.bind] at h

/-! ## Writing -/

theorem writeComp_words : ∀ (ts : List Table) (c : Comp), writeComp ts c = (compWords ts c).flatten
  | [], _ => by simp [writeComp, compWords]
  | t :: ts, [] => by simp [writeComp, compWords]
  | t :: ts, v :: vs => by
    simp only [writeComp, compWords, List.flatten_append, writeComp_words ts vs]
    cases v <;> simp

/-- Words with one space between. -/
def spaced : List Word → List Char
  | [] => []
  | [k] => k
  | k :: ks => k ++ ' ' :: spaced ks

theorem spaced_cons (k : Word) (ks : List Word) : spaced (k :: ks) = k ++ (if ks = [] then [] else ' ' :: spaced ks) := by
  cases ks <;> simp [spaced]

theorem compWords_ne {ts : List Table} {c : Comp} {k : Word} (h : compWords ts c = [k]) : c ≠ ts.map fun _ => none := by
  rintro rfl
  have := compWords_empty ts
  rw [emptyComp] at this
  rw [this] at h
  cases h

/-- The words, with a space in front if there was something before. -/
def lead (after : Bool) : List Word → List Char
  | [] => []
  | k :: ks => (if after then [' '] else []) ++ spaced (k :: ks)

theorem writeComps_single {tss : List (List Table)} {vs : List (Option Comp)} (h : Single tss vs) : ∀ after,
    writeComps after tss (withDefaults tss vs) = lead after (allWords tss vs) := by
  induction h with
  | nil => intro after; rfl
  | @no ts tss vs _ ih =>
    intro after
    rw [show allWords (ts :: tss) (none :: vs) = allWords tss vs from rfl, ← ih]
    simp only [writeComps, withDefaults, Option.getD, if_true]
  | @empty ts tss vs _ ih =>
    intro after
    rw [show allWords (ts :: tss) (some (emptyComp ts) :: vs) = allWords tss vs by simp [allWords, compWords_empty], ← ih]
    simp only [writeComps, withDefaults, Option.getD, emptyComp, if_true]
  | @one ts tss vs c k h1 h2 h3 hs ih =>
    intro after
    rw [show allWords (ts :: tss) (some c :: vs) = k :: allWords tss vs by simp [allWords, h1]]
    simp only [writeComps, withDefaults, Option.getD, if_neg (compWords_ne h1), ih, h1, writeComp_words, lead, spaced_cons]
    cases allWords tss vs with
    | nil => simp
    | cons k' ks => simp [spaced_cons]

theorem chain_spaced : ∀ ks : List Word, (∀ k ∈ ks, IsKey k) → Chain (spaced ks) ks []
  | [], _ => .nil
  | k :: ks, h => by
    rw [spaced_cons]
    have hk := h k (by simp)
    have ih := chain_spaced ks fun j hj => h j (by simp [hj])
    by_cases h0 : ks = []
    · subst h0
      exact .key hk (by intro c t e; simp at e) .nil
    · simp only [h0, if_false]
      refine .key hk ?_ (.white (by decide) ih)
      intro c t e
      cases e
      decide

theorem single_keys {tss : List (List Table)} (hk : ∀ g ∈ tss, ∀ t ∈ g, Keys t) {vs : List (Option Comp)} (h : Single tss vs) :
    ∀ k ∈ allWords tss vs, IsKey k := by
  induction h with
  | nil => simp [allWords]
  | no _ ih => simpa [allWords] using ih fun g hg => hk g (by simp [hg])
  | empty _ ih => simpa [allWords, compWords_empty] using ih fun g hg => hk g (by simp [hg])
  | one h1 h2 h3 _ ih =>
    intro k hkm
    simp only [allWords, h1, List.mem_append, List.mem_singleton] at hkm
    rcases hkm with rfl | hkm
    · obtain ⟨t, ht, hkt⟩ := h2
      exact hk _ (by simp) t ht _ hkt
    · exact ih (fun g hg => hk g (by simp [hg])) k hkm

theorem single_start : Single groups (groups.map fun _ => none) :=
  .no (.no (.no (.no (.no (.no .nil)))))

theorem allWords_start : allWords groups (groups.map fun _ => none) = [] := by
  simp [groups, allWords]

/-- The state of the loop at its end. -/
theorem font_ok {s : List Char} {v : FontVariant} (h : Reads parseFontVariant s v) :
    (v = .normal ∧ words s = ["normal".toList]) ∨ (v = .disabled ∧ words s = ["none".toList]) ∨
    ∃ vs, v = .comps (withDefaults groups vs) ∧ Single groups vs ∧ (allWords groups vs).Perm (words s) := by
  obtain ⟨r, h1, h2⟩ := (reads_iff view_font s v).1 h
  simp only [gOr] at h1
  have hkey : ∀ w, IsKey w → gIdent (s.dropWhile isWhitespace) = .ok w r → words s = [w] := by
    intro w hw hi
    obtain ⟨h3, h4, _⟩ := gIdent_ok hi
    have hch : Chain s [w] [] := by
      have h5 := chain_white (s := s)
      rw [h3] at h5
      exact h5.trans ((Chain.key hw h4 .nil).trans (chain_end h2))
    exact chain_words hch rfl
  have hcomps : gComps (s.dropWhile isWhitespace) = .ok v r →
      ∃ vs, v = .comps (withDefaults groups vs) ∧ Single groups vs ∧ (allWords groups vs).Perm (words s) := by
    intro h1
    unfold gComps at h1
    cases hf : gFillAll true gParsers 7 (groups.map fun _ => none) (s.dropWhile isWhitespace) with
    | ok vs r1 =>
      simp only [hf, Out.bind] at h1
      cases h1
      obtain ⟨h3, ks, h4, h5⟩ := fillAll_all takes_parsers _ _ _ _ _ single_start hf
      refine ⟨vs, rfl, h3, ?_⟩
      rw [allWords_start, List.nil_append] at h5
      have := chain_words (chain_white.trans (h4.trans (chain_end h2))) rfl
      rw [this]
      simpa using h5
    | err => simp [hf, Out.bind] at h1
    | panic => simp [hf, Out.bind] at h1
  cases hi : gIdent (s.dropWhile isWhitespace) with
  | ok w r' =>
    by_cases hw1 : w = "normal".toList
    · simp only [gKey, hi, Out.bind, if_pos hw1] at h1
      cases h1
      exact .inl ⟨rfl, hw1 ▸ hkey w (hw1 ▸ key_normal) hi⟩
    · by_cases hw2 : w = "none".toList
      · simp only [gKey, hi, Out.bind, if_neg hw1, if_pos hw2] at h1
        cases h1
        exact .inr (.inl ⟨rfl, hw2 ▸ hkey w (hw2 ▸ (by decide +kernel)) hi⟩)
      · simp only [gKey, hi, Out.bind, if_neg hw1, if_neg hw2] at h1
        exact .inr (.inr (hcomps h1))
  | err =>
    simp only [gKey, hi, Out.bind] at h1
    exact .inr (.inr (hcomps h1))
  | panic => simp [gKey, hi, Out.bind] at h1

/-- **C91 (font variants keep their words)** Of a text of `font-variant` that is read, exactly the words are written, in
the order of the components. -/
theorem font_kept (s : List Char) (v : FontVariant) (h : Reads parseFontVariant s v) :
    (words (writeFontVariant v)).Perm (words s) := by
  rcases font_ok h with ⟨rfl, h1⟩ | ⟨rfl, h1⟩ | ⟨vs, rfl, h1, h2⟩
  · rw [h1]; decide +kernel
  · rw [h1]; decide +kernel
  · refine .trans (.of_eq ?_) h2
    simp only [writeFontVariant]
    rw [writeComps_single h1 false]
    have h4 := chain_words (chain_spaced _ (single_keys groups_keys h1)) rfl
    cases h0 : allWords groups vs with
    | nil => rfl
    | cons k ks => rw [h0] at h4; exact h4

/-- The words of a component of `font-variant`. -/
def groupWords (g : Nat) : List Word := (groups.getD g []).flatten

theorem single_count {tss : List (List Table)} {vs : List (Option Comp)} (h : Single tss vs) (S : List Word) :
    ((allWords tss vs).filter fun k => decide (k ∈ S)).length ≤ (tss.filter fun ts => ts.flatten.any fun k => decide (k ∈ S)).length := by
  induction h with
  | nil => simp [allWords]
  | @no ts tss vs _ ih =>
    simp only [allWords, List.nil_append]
    refine Nat.le_trans ih ?_
    rw [List.filter_cons]
    split <;> simp
  | @empty ts tss vs _ ih =>
    simp only [allWords, compWords_empty, List.nil_append]
    refine Nat.le_trans ih ?_
    rw [List.filter_cons]
    split <;> simp
  | @one ts tss vs c k h1 h2 h3 hs ih =>
    simp only [allWords, h1, List.cons_append, List.nil_append]
    rw [List.filter_cons, List.filter_cons]
    by_cases hk : k ∈ S
    · obtain ⟨t, ht, hkt⟩ := h2
      have : (ts.flatten.any fun k => decide (k ∈ S)) = true := by
        rw [List.any_eq_true]
        exact ⟨k, List.mem_flatten.2 ⟨t, ht, hkt⟩, by simpa using hk⟩
      simp only [hk, decide_true, if_true, this, List.length_cons]
      omega
    · simp only [hk, decide_false, Bool.false_eq_true, if_false]
      refine Nat.le_trans ih ?_
      split <;> simp

/-- **C91 (a component of `font-variant` takes one word)** No text with two words of the same component of `font-variant`
is read, although the ligatures, the numerals and the East Asian forms allow several words each. -/
theorem font_group_violated (g : Nat) (hg : g < 6) (s : List Char)
    (h2 : 2 ≤ ((words s).filter fun k => decide (k ∈ groupWords g)).length) : ¬ ∃ v, Reads parseFontVariant s v := by
  rintro ⟨v, h⟩
  have hk : ∀ g < 6, "normal".toList ∉ groupWords g ∧ "none".toList ∉ groupWords g := by decide +kernel
  rcases font_ok h with ⟨rfl, h1⟩ | ⟨rfl, h1⟩ | ⟨vs, rfl, h1, h3⟩
  · rw [h1, List.filter_cons] at h2
    rw [if_neg (by simp only [decide_eq_true_eq]; exact (hk g hg).1)] at h2
    simp at h2
  · rw [h1, List.filter_cons] at h2
    rw [if_neg (by simp only [decide_eq_true_eq]; exact (hk g hg).2)] at h2
    simp at h2
  · have h4 := single_count h1 (groupWords g)
    have h5 := (h3.filter fun k => decide (k ∈ groupWords g)).length_eq
    have h6 : ∀ g < 6, (groups.filter fun ts => ts.flatten.any fun k => decide (k ∈ groupWords g)).length ≤ 1 := by
      decide +kernel
    have := h6 g hg
    omega

/-! ## Ligatures come first -/

theorem fillAll_some {β : Type} (skip : Bool) (g : List Char → Out β) (gs : List (List Char → Out β)) (c : β) : ∀ n vs r,
    gFillAll skip (g :: gs) n (some c :: vs) r = (gFillAll skip gs n vs r).bind fun vs r => .ok (some c :: vs) r
  | 0, vs, r => rfl
  | n + 1, vs, r => by
    simp only [gFillAll, gFill]
    cases gFill gs vs (if skip = true then r.dropWhile isWhitespace else r) with
    | ok o r1 =>
      simp only [Out.bind]
      cases o with
      | none => rfl
      | some vs' =>
        simp only [Option.map]
        rw [fillAll_some skip g gs c n vs' r1]
        rfl
    | err => rfl
    | panic => rfl

theorem fill_enum_err : ∀ (ts : List Table) (vs : Comp) (r : List Char), gFill (ts.map gEnum) vs r ≠ .err
  | [], vs, r => by simp [gFill]
  | t :: ts, [], r => by simp [gFill]
  | t :: ts, some b :: vs, r => by
    have := fill_enum_err ts vs r
    simp only [List.map_cons, gFill]
    cases h : gFill (ts.map gEnum) vs r <;> simp_all [Out.bind]
  | t :: ts, none :: vs, r => by
    have := fill_enum_err ts vs r
    simp only [List.map_cons, gFill]
    cases gEnum t r with
    | ok i r1 => simp
    | err =>
      simp only
      cases h : gFill (ts.map gEnum) vs r <;> simp_all [Out.bind]
    | panic => simp

theorem fillAll_enum_err (ts : List Table) : ∀ n vs r, gFillAll false (ts.map gEnum) n vs r ≠ .err
  | 0, vs, r => by simp [gFillAll]
  | n + 1, vs, r => by
    have := fill_enum_err ts vs r
    simp only [gFillAll, Bool.false_eq_true, if_false]
    cases h : gFill (ts.map gEnum) vs r with
    | ok o r1 =>
      simp only [Out.bind]
      cases o with
      | none => simp
      | some vs' => exact fillAll_enum_err ts n vs' r1
    | err => exact absurd h this
    | panic => simp [Out.bind]

theorem single_mem {tss : List (List Table)} {vs : List (Option Comp)} (h : Single tss vs) :
    ∀ k ∈ allWords tss vs, ∃ ts ∈ tss, k ∈ ts.flatten := by
  induction h with
  | nil => simp [allWords]
  | no _ ih =>
    intro k hk
    obtain ⟨ts, h1, h2⟩ := ih k (by simpa [allWords] using hk)
    exact ⟨ts, by simp [h1], h2⟩
  | empty _ ih =>
    intro k hk
    obtain ⟨ts, h1, h2⟩ := ih k (by simpa [allWords, compWords_empty] using hk)
    exact ⟨ts, by simp [h1], h2⟩
  | one h1 h2 h3 _ ih =>
    intro k hk
    simp only [allWords, h1, List.mem_append, List.mem_singleton] at hk
    rcases hk with rfl | hk
    · obtain ⟨t, ht, hkt⟩ := h2
      exact ⟨_, List.mem_cons_self, List.mem_flatten.2 ⟨t, ht, hkt⟩⟩
    · obtain ⟨ts, h4, h5⟩ := ih k hk
      exact ⟨ts, by simp [h4], h5⟩

/-- **C91 (words for ligatures must be first)** No text of `font-variant` with a word for ligatures behind another word is
read, although the order of the words has no meaning. -/
theorem font_order_violated (s : List Char) (k : Word) (hk : k ∈ groupWords 0) (hs : k ∈ (words s).tail) :
    ¬ ∃ v, Reads parseFontVariant s v := by
  rintro ⟨v, h⟩
  obtain ⟨r, h1, h2⟩ := (reads_iff view_font s v).1 h
  have hcomps : gComps (s.dropWhile isWhitespace) = .ok v r → False := by
    intro h1
    unfold gComps at h1
    cases hf : gFillAll true gParsers 7 (groups.map fun _ => none) (s.dropWhile isWhitespace) with
    | ok vs r1 =>
      simp only [hf, Out.bind] at h1
      cases h1
      have ht : TakesAll groups.tail gParsers.tail := by
        have := takes_parsers
        cases this with
        | cons _ h => exact h
      have hst : Single groups.tail (groups.tail.map fun _ => none) := .no (.no (.no (.no (.no .nil))))
      have hf2 : gFillAll true (gComp ligatures :: gParsers.tail) 7 (none :: groups.tail.map fun _ => none) (s.dropWhile isWhitespace) =
          .ok vs r := hf
      rw [gFillAll] at hf2
      simp only [if_true, gFill] at hf2
      cases hc : gComp ligatures ((s.dropWhile isWhitespace).dropWhile isWhitespace) with
      | ok c r2 =>
        simp only [hc, Out.bind] at hf2
        rw [fillAll_some] at hf2
        cases hg : gFillAll true gParsers.tail 6 (groups.tail.map fun _ => none) r2 with
        | ok vs2 r3 =>
          simp only [hg, Out.bind] at hf2
          cases hf2
          obtain ⟨h3, ks, h4, h5⟩ := fillAll_all ht _ _ _ _ _ hst hg
          have h5 : (allWords groups.tail vs2).Perm ks := by
            rw [show allWords groups.tail (groups.tail.map fun _ => none) = [] by simp [groups, allWords]] at h5
            exact h5
          have hno : k ∉ ks := by
            intro hkk
            obtain ⟨ts, h6, h7⟩ := single_mem h3 k (h5.mem_iff.2 hkk)
            have hd : ∀ ts ∈ groups.tail, ∀ k ∈ groupWords 0, k ∉ ts.flatten := by decide +kernel
            exact hd ts h6 k hk h7
          rcases comp_ok (groups_keys ligatures (by simp [groups])) hc with ⟨_, e⟩ | ⟨w, _, _, _, h8⟩
          · subst e
            have hw := chain_words (chain_white.trans (chain_white.trans (h4.trans (chain_end h2)))) rfl
            simp only [List.nil_append, List.append_nil] at hw
            rw [hw] at hs
            exact hno (List.mem_of_mem_tail hs)
          · have hw := chain_words (chain_white.trans (chain_white.trans (h8.trans (h4.trans (chain_end h2))))) rfl
            simp only [List.nil_append, List.append_nil, List.cons_append] at hw
            rw [hw] at hs
            exact hno hs
        | err => simp only [hg, Out.bind] at hf2; cases hf2
        | panic => simp only [hg, Out.bind] at hf2; cases hf2
      | err => exact absurd hc (fillAll_enum_err _ _ _ _)
      | panic => simp [hc, Out.bind] at hf2
    | err => simp [hf, Out.bind] at h1
    | panic => simp [hf, Out.bind] at h1
  rcases font_ok h with ⟨rfl, h3⟩ | ⟨rfl, h3⟩ | ⟨vs, rfl, _, _⟩
  · simp [h3] at hs
  · simp [h3] at hs
  · simp only [gOr] at h1
    cases hk : gKey (s.dropWhile isWhitespace) with
    | err => simp only [hk] at h1; exact hcomps h1
    | panic => simp [hk] at h1
    | ok v' r' =>
      simp only [hk] at h1
      cases h1
      unfold gKey at hk
      cases hi : gIdent (s.dropWhile isWhitespace) with
      | ok w r2 =>
        simp only [hi, Out.bind] at hk
        split at hk
        · cases hk
        · split at hk <;> cases hk
      | err => simp [hi, Out.bind] at hk
      | panic => simp [hi, Out.bind] at hk

end Verif.Keywords
