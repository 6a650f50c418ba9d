import Verif.Keywords.Model
import Verif.Parse.Props

/-!
# Parsers as functions of the remaining text
-/

namespace Verif.Keywords

open Verif.Parse

/-- The outcome of a parser on the remaining text. -/
inductive Out (α : Type) where
  | ok (a : α) (rest : List Char)
  | err
  | panic

/-- A parser acts on the remaining text as the function says. -/
def View {α : Type} (f : Parser → Res α) (g : List Char → Out α) : Prop :=
  ∀ p pre rest, At p pre rest →
    match g rest with
    | .ok a r => ∃ w q, rest = w ++ r ∧ f p = .ok a q ∧ At q (pre ++ w) r
    | .err => ∃ q, f p = .err q ∧ q.input = p.input
    | .panic => f p = .panic

def gIdent : List Char → Out Word
  | [] => .err
  | c :: t => if c.utf8Size ≠ 1 then .panic else
      if isNameStartChar c then .ok (c :: t.takeWhile isNameChar) (t.dropWhile isNameChar) else .err

theorem view_ident : View Parser.expectIdent gIdent := by
  intro p pre rest h
  cases rest with
  | nil =>
    obtain ⟨q, hq, hs⟩ := expectIdent_spec h (by intro c t e; cases e)
    exact ⟨q, hs.1, hq⟩
  | cons c t =>
    by_cases hc : c.utf8Size = 1
    · obtain ⟨q, hq, hs⟩ := expectIdent_spec h (ascii_head_cons.2 hc)
      simp only at hs
      simp only [gIdent, hc, ne_eq, not_true, if_false]
      by_cases hn : isNameStartChar c = true
      · simp only [if_pos hn] at hs ⊢
        exact ⟨_, q, by simp, hs.1, hs.2⟩
      · simp only [if_neg hn] at hs ⊢
        exact ⟨q, hs.1, hq⟩
    · simp only [gIdent, ne_eq, hc, not_false_eq_true, if_true]
      exact (expectIdent_panic_iff h).2 (by rw [ascii_head_cons]; exact hc)

theorem At.same {p q : Parser} {pre w r : List Char} (h : At p pre (w ++ r)) (hq : At q (pre ++ w) r) : q.input = p.input := by
  rw [h.1, hq.1]; simp

theorem view_tryParse {α : Type} {f : Parser → Res α} {g : List Char → Out α} (hv : View f g) {p : Parser}
    {pre rest : List Char} (h : At p pre rest) :
    match g rest with
    | .ok a r => ∃ w q, rest = w ++ r ∧ p.tryParse f = .ok a q ∧ At q (pre ++ w) r
    | .err => p.tryParse f = .err p
    | .panic => p.tryParse f = .panic := by
  have := hv p pre rest h
  cases hg : g rest with
  | ok a r =>
    rw [hg] at this
    obtain ⟨w, q, h1, h2, h3⟩ := this
    exact ⟨w, q, h1, by simp [Parser.tryParse, h2], h3⟩
  | err =>
    rw [hg] at this
    obtain ⟨q, h1, h2⟩ := this
    simp only [Parser.tryParse, h1]
    congr 1
    cases p; cases q; simp_all
  | panic =>
    rw [hg] at this
    simp only at this
    simp [Parser.tryParse, this]

def Out.bind {α β : Type} (o : Out α) (f : α → List Char → Out β) : Out β :=
  match o with
  | .ok a r => f a r
  | .err => .err
  | .panic => .panic

theorem view_bind {α β : Type} {f : Parser → Res α} {g : List Char → Out α} {f' : α → Parser → Res β}
    {g' : α → List Char → Out β} (h : View f g) (h' : ∀ a, View (f' a) (g' a)) :
    View (fun p => (f p).bind f') (fun r => (g r).bind g') := by
  intro p pre rest hp
  have := h p pre rest hp
  simp only
  cases hg : g rest with
  | ok a r =>
    rw [hg] at this
    obtain ⟨w, q, h1, h2, h3⟩ := this
    have h4 := h' a q _ _ h3
    simp only [Out.bind, h2, Res.bind]
    cases hg' : g' a r with
    | ok b r' =>
      simp only [hg'] at h4
      obtain ⟨w', q', h5, h6, h7⟩ := h4
      exact ⟨w ++ w', q', by simp [h1, h5], h6, by simpa using h7⟩
    | err =>
      simp only [hg'] at h4
      obtain ⟨q', h5, h6⟩ := h4
      subst h1
      exact ⟨q', h5, h6.trans (At.same hp h3)⟩
    | panic => simpa only [hg'] using h4
  | err =>
    simp only [hg] at this
    obtain ⟨q, h1, h2⟩ := this
    exact ⟨q, by simp [h1, Res.bind], h2⟩
  | panic =>
    simp only [hg] at this
    simp [Out.bind, this, Res.bind]

theorem view_ok {α : Type} (a : α) : View (fun p => .ok a p) (fun r => .ok a r) := by
  intro p pre rest h
  exact ⟨[], p, rfl, rfl, by simpa using h⟩

theorem view_err {α : Type} : View (fun p => .err p : Parser → Res α) (fun _ => .err) := by
  intro p pre rest h
  exact ⟨p, rfl, rfl⟩

def gWhite (r : List Char) : Out Unit := .ok () (r.dropWhile isWhitespace)

theorem view_white : View Parser.skipWhitespace gWhite := by
  intro p pre rest h
  obtain ⟨q, h1, h2, _⟩ := h.skipMatches_at isWhitespace
  exact ⟨rest.takeWhile isWhitespace, q, by simp, h1, h2⟩

def gDone (r : List Char) : Out Unit := if r = [] then .ok () [] else .err

theorem view_done : View Parser.expectDone gDone := by
  intro p pre rest h
  have hs := expectDone_spec h
  by_cases hr : rest = []
  · subst hr
    simp only [gDone, if_true]
    exact ⟨[], p, rfl, (hs p).2 ⟨rfl, rfl⟩, by simpa using h⟩
  · simp only [gDone, if_neg hr]
    refine ⟨p, ?_, rfl⟩
    by_cases hc : p.cursor < width p.input
    · simp [Parser.expectDone, hc]
    · exact absurd ((hs p).1 (by simp [Parser.expectDone, hc])).1 hr

/-- The text is read as the value. -/
def Reads {α : Type} (f : Parser → Res α) (text : List Char) (a : α) : Prop := ∃ q, parseString f text = .ok a q

theorem reads_iff {α : Type} {f : Parser → Res α} {g : List Char → Out α} (hv : View f g) (s : List Char) (a : α) :
    Reads f s a ↔ ∃ r, g (s.dropWhile isWhitespace) = .ok a r ∧ r.dropWhile isWhitespace = [] := by
  have hV : View (fun p => p.skipWhitespace.bind fun _ p => (f p).bind fun a p =>
      p.skipWhitespace.bind fun _ p => p.expectDone.bind fun _ p => .ok a p)
      (fun r => (gWhite r).bind fun _ r => (g r).bind fun a r => (gWhite r).bind fun _ r => (gDone r).bind fun _ r => .ok a r) :=
    view_bind view_white fun _ => view_bind hv fun a => view_bind view_white fun _ => view_bind view_done fun _ => view_ok a
  have h0 : At (Parser.new s) [] s := ⟨rfl, rfl⟩
  have h1 := hV _ _ _ h0
  simp only [gWhite, Out.bind] at h1
  unfold Reads parseString
  cases hg : g (s.dropWhile isWhitespace) with
  | ok b r =>
    simp only [hg] at h1
    by_cases hr : r.dropWhile isWhitespace = []
    · simp only [gDone, hr, if_true] at h1
      obtain ⟨w, q, _, h2, _⟩ := h1
      constructor
      · rintro ⟨q', h3⟩
        rw [h3] at h2
        cases h2
        exact ⟨r, rfl, hr⟩
      · rintro ⟨r', h3, _⟩
        cases h3
        exact ⟨q, h2⟩
    · simp only [gDone, hr, if_false] at h1
      obtain ⟨q, h2, _⟩ := h1
      constructor
      · rintro ⟨q', h3⟩
        rw [h3] at h2
        cases h2
      · rintro ⟨r', h3, h4⟩
        cases h3
        exact absurd h4 hr
  | err =>
    simp only [hg] at h1
    obtain ⟨q, h2, _⟩ := h1
    constructor
    · rintro ⟨q', h3⟩
      rw [h3] at h2
      cases h2
    · rintro ⟨r', h3, h4⟩
      cases h3
  | panic =>
    simp only [hg] at h1
    constructor
    · rintro ⟨q', h3⟩
      rw [h3] at h1
      cases h1
    · rintro ⟨r', h3, h4⟩
      cases h3

def gFind (t : Table) (w : Word) (r : List Char) : Out Nat :=
  match find t w with
  | some i => .ok i r
  | none => .err

def gEnum (t : Table) (r : List Char) : Out Nat := (gIdent r).bind (gFind t)

theorem view_enum (t : Table) : View (parseEnum t) (gEnum t) := by
  have : ∀ w, View (fun q => match find t w with | some i => .ok i q | none => .err q) (gFind t w) := by
    intro w
    unfold gFind
    cases find t w with
    | none => exact view_err
    | some i => exact view_ok i
  exact view_bind view_ident this

def gOr {α : Type} (g g' : List Char → Out α) (r : List Char) : Out α :=
  match g r with
  | .err => g' r
  | o => o

theorem view_or {α : Type} {f f' : Parser → Res α} {g g' : List Char → Out α} (h : View f g) (h' : View f' g') :
    View (orElse f f') (gOr g g') := by
  intro p pre rest hp
  have h1 := view_tryParse h hp
  simp only [gOr, orElse]
  cases hg : g rest with
  | ok a r =>
    simp only [hg] at h1
    obtain ⟨w, q, h2, h3, h4⟩ := h1
    exact ⟨w, q, h2, by rw [h3], h4⟩
  | err =>
    simp only [hg] at h1
    rw [h1]
    exact h' p pre rest hp
  | panic =>
    simp only [hg] at h1
    simp [h1]

def gFill {β : Type} : List (List Char → Out β) → List (Option β) → List Char → Out (Option (List (Option β)))
  | f :: fs, v :: vs, r =>
    match v with
    | some b => (gFill fs vs r).bind fun o r => .ok (o.map (some b :: ·)) r
    | none =>
      match f r with
      | .ok b r => .ok (some (some b :: vs)) r
      | .err => (gFill fs vs r).bind fun o r => .ok (o.map (none :: ·)) r
      | .panic => .panic
  | _, _, r => .ok none r

/-- The parsers act as the functions, one by one. -/
inductive Views {β : Type} : List (Parser → Res β) → List (List Char → Out β) → Prop
  | nil : Views [] []
  | cons {f g fs gs} : View f g → Views fs gs → Views (f :: fs) (g :: gs)

theorem view_fill {β : Type} : ∀ {fs : List (Parser → Res β)} {gs : List (List Char → Out β)}, Views fs gs →
    ∀ vs, View (fill fs vs) (gFill gs vs)
  | _, _, .nil, vs => by
    intro p pre rest h
    simp only [gFill, fill]
    exact ⟨[], p, rfl, rfl, by simpa using h⟩
  | _, _, .cons _ _, [] => by
    intro p pre rest h
    simp only [gFill, fill]
    exact ⟨[], p, rfl, rfl, by simpa using h⟩
  | _, _, .cons (fs := fs) (gs := gs) _ hs, some b :: vs => by
    have := view_bind (view_fill hs vs) (f' := fun o p => .ok (o.map (some b :: ·)) p)
      (g' := fun o r => .ok (o.map (some b :: ·)) r) (fun o => view_ok _)
    intro p pre rest h
    have := this p pre rest h
    simpa only [gFill, fill] using this
  | _, _, .cons (f := f) (g := g) h hs, none :: vs => by
    have ih := view_bind (view_fill hs vs) (f' := fun o p => .ok (o.map (none :: ·)) p)
      (g' := fun o r => .ok (o.map (none :: ·)) r) (fun o => view_ok _)
    intro p pre rest hp
    have h1 := view_tryParse h hp
    simp only [gFill, fill]
    cases hg : g rest with
    | ok a r =>
      simp only [hg] at h1
      obtain ⟨w, q, h2, h3, h4⟩ := h1
      exact ⟨w, q, h2, by rw [h3], h4⟩
    | err =>
      simp only [hg] at h1
      rw [h1]
      exact ih p pre rest hp
    | panic =>
      simp only [hg] at h1
      simp [h1]

def gFillAll {β : Type} (skip : Bool) (gs : List (List Char → Out β)) : Nat → List (Option β) → List Char → Out (List (Option β))
  | 0, _, _ => .panic
  | n + 1, vs, r =>
    (gFill gs vs (if skip then r.dropWhile isWhitespace else r)).bind fun o r =>
      match o with
      | none => .ok vs r
      | some vs => gFillAll skip gs n vs r

theorem view_fillAll {β : Type} (skip : Bool) {fs : List (Parser → Res β)} {gs : List (List Char → Out β)}
    (h : Views fs gs) : ∀ n vs, View (fillAll skip fs n vs) (gFillAll skip gs n vs)
  | 0, vs => by
    intro p pre rest hp
    rfl
  | n + 1, vs => by
    have h1 : View (fun p => (if skip then p.skipWhitespace else .ok () p))
        (fun r => .ok () (if skip then r.dropWhile isWhitespace else r)) := by
      cases skip with
      | true => exact view_white
      | false => exact view_ok ()
    have := view_bind h1 fun _ => view_bind (view_fill h vs) (f' := fun r q => match r with
        | none => .ok vs q
        | some vs => fillAll skip fs n vs q) (g' := fun o r => match o with
        | none => .ok vs r
        | some vs => gFillAll skip gs n vs r) fun o => by
          cases o with
          | none => exact view_ok vs
          | some vs' => exact view_fillAll skip h n vs'
    exact this

end Verif.Keywords
