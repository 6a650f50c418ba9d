import Verif.Background.Props

/-! # C70: where the cleaning of `enable-background` goes too far, and examples -/

namespace Verif.Background

variable {N V : Type}

theorem fates_mem {P : Prop} {k : Kind} {as l out : List (Item N V)} (h : Fates P k as l out) {a : Item N V} (ha : a ∈ out) :
    ∃ b x, b ∈ l ∧ Fate P k as b x ∧ a ∈ x := by
  induction h with
  | nil => cases ha
  | cons h1 _ ih =>
    rcases List.mem_append.1 ha with ha | ha
    · exact ⟨_, _, List.mem_cons_self, h1, ha⟩
    · obtain ⟨b, x, hb, hx⟩ := ih ha
      exact ⟨b, x, .tail _ hb, hx⟩

/-- **C70 (violated by styles)**: with or without a filter, on every element, whatever its size: a `style` attribute never asks for a new background
any more. -/
theorem style_violated [DecidableEq N] (f : Bool) (k : Kind) {as : List (Item N V)} (h : Once as) (rest : List (Token V)) :
    ¬ Counts (element f k as) (.declared (.ident "new" :: rest)) := by
  have hf := element_fates (P := f = true) Iff.rfl k h
  have none : ∀ c, Item.style c ∈ element f k as → ∀ d, d ∈ c.important ∨ d ∈ c.normal → ¬ Renews d := by
    intro c hc d hd
    obtain ⟨b, x, _, hx, hm⟩ := fates_mem hf hc
    cases hx with
    | style h1 h2 _ =>
      simp only [List.mem_singleton, Item.style.injEq] at hm
      subst hm
      exact hd.elim (fun hd => ((without_mem h1 d).1 hd).2) fun hd => ((without_mem h2 d).1 hd).2
    | _ => simp at hm
  intro hc
  generalize hs : Source.declared (N := N) (Token.ident "new" :: rest) = s at hc
  cases hc with
  | important hb hl =>
    cases hs
    obtain ⟨x, d, y, e, hd, _⟩ := hl
    cases hd
    exact none _ hb _ (.inl (by rw [e]; simp)) ⟨rest⟩
  | normal hb _ hl =>
    cases hs
    obtain ⟨x, d, y, e, hd, _⟩ := hl
    cases hd
    exact none _ hb _ (.inr (by rw [e]; simp)) ⟨rest⟩
  | attr => cases hs
  | initial => cases hs

/-- **C70 (violated by positions)**: where the region begins does not matter: on an `<svg>` it is as good as absent, though it only takes a part of the
element, and another one than the element. -/
theorem offset_violated [DecidableEq N] {as : List (Item N V)} (h : Once as) (x y w l : N)
    (hb : .background (.defined (.fresh (some (x, y, w, l)))) ∈ as) (hw : .width (.px w) ∈ as) (hl : .height (.px l) ∈ as) (b : Held N) :
    .background b ∉ element true .svg as := by
  intro hm
  obtain ⟨a, z, ha, hz, hm⟩ := fates_mem (element_fates (P := True) (by simp) .svg h) hm
  cases hz with
  | style => simp at hm
  | empty => simp at hm
  | unused _ hn => exact hn trivial
  | svg => cases hm
  | inner _ _ hk => cases hk <;> contradiction
  | kept _ hk =>
    have e := h.same ha hb
    exact (hk ⟨x, y, w, l, e, hw, hl⟩).1 rfl
  | width => simp at hm
  | height => simp at hm
  | other => simp at hm

/-- Something that is not looked at. -/
abbrev Item' := Item Nat String

/-- A filter is in the document; the group gets a new background by its style, the root has one that is somewhere else, and the mask one that fits. -/
def sample : List (Node Nat String) :=
  [.leaf "comment", .elem .svg "svg" [.width (.px 10), .height (.px 20), .background (.defined (.fresh (some (5, 5, 10, 20))))] [
    .elem .filter "filter" [.other "id"] [],
    .elem .mask "m" [.background (.defined (.fresh (some (0, 0, 4, 4)))), .width (.px 4), .height (.px 4)] [],
    .elem .other "g" [.style ⟨[], [.custom "enable-background" [.ident "new", .other "0"]]⟩] [],
    .elem .other "h" [.background (.defined (.fresh none)), .style ⟨[.known "a"], [.custom "enable-background" [.ident "accumulate"]]⟩] []]]

example : run true sample =
    [.leaf "comment", .elem .svg "svg" [.width (.px 10), .height (.px 20)] [
      .elem .filter "filter" [.other "id"] [],
      .elem .mask "m" [.background (.defined (.fresh none)), .width (.px 4), .height (.px 4)] [],
      .elem .other "g" [] [],
      .elem .other "h" [.background (.defined (.fresh none)), .style ⟨[.known "a"], [.custom "enable-background" [.ident "accumulate"]]⟩] []]] := rfl

example : CleanedAll (Filtered sample) sample (run true sample) := run_exact sample ⟨_, _, _, _, .tail _ (.head _)⟩

example : Filtered sample := ⟨[.leaf "comment"], _, _, _, _, [], rfl, fun m hm => ⟨_, List.mem_singleton.1 hm⟩, _, .head _, .here _ _ _⟩

example : run false sample = sample := run_else false sample (.inl rfl)

theorem once_group : Once ([.style ⟨[], [.custom "enable-background" [.ident "new"]]⟩] : List Item') := List.pairwise_singleton _ _

/-- The background of this group is a new one before and the initial one after, with a filter in the document. -/
example : Counts (N := Nat) [.style ⟨[], [.custom "enable-background" [.ident (V := String) "new"]]⟩] (.declared [.ident "new"]) ∧
    Counts (element true .other ([.style ⟨[], [.custom "enable-background" [.ident "new"]]⟩] : List Item')) .initial ∧
    ¬ Counts (element true .other ([.style ⟨[], [.custom "enable-background" [.ident "new"]]⟩] : List Item')) (.declared [.ident "new"]) := by
  refine ⟨.normal (.head _) (by simp) ⟨[], _, [], rfl, ⟨_⟩, by simp⟩, .initial ?_ ?_, style_violated _ _ once_group _⟩
  · intro b hb
    cases hb
  · intro h hh
    cases hh

example : FineAll sample := by
  refine ⟨trivial, ⟨?_, ⟨?_, trivial⟩, ⟨?_, trivial⟩, ⟨?_, trivial⟩, ⟨?_, trivial⟩, trivial⟩, trivial⟩ <;>
    simp only [Once, List.pairwise_cons, List.Pairwise.nil, and_true, List.mem_cons, List.not_mem_nil, or_false, forall_eq_or_imp, forall_eq, false_implies,
      implies_true] <;>
    grind [Clash]

end Verif.Background
