import Verif.Keywords.Lemmas

/-!
# The words of a text, and texts made of words
-/

namespace Verif.Keywords

open Verif.Parse

/-- The words of a text: `word` is the part of a word that was read already. -/
def wordsFrom (word : List Char) : List Char → List Word
  | [] => if word = [] then [] else [word]
  | c :: t => if isWhitespace c then (if word = [] then wordsFrom [] t else word :: wordsFrom [] t)
      else wordsFrom (word ++ [c]) t

/-- The words of a text: its longest parts without white space. -/
def words (s : List Char) : List Word := wordsFrom [] s

/-- A name, the first character of which takes one byte, without white space. -/
def IsKey (k : Word) : Prop :=
  ∃ c t, k = c :: t ∧ c.utf8Size = 1 ∧ isNameStartChar c = true ∧ (∀ d ∈ t, isNameChar d = true) ∧
    ∀ d ∈ k, isWhitespace d = false

/-- The text does not go on with a character of a name. -/
def NoName (r : List Char) : Prop := ∀ c t, r = c :: t → isNameChar c = false

/-- White space and words, up to a rest. -/
inductive Chain : List Char → List Word → List Char → Prop
  | nil {r} : Chain r [] r
  | white {c r ks r'} : isWhitespace c = true → Chain r ks r' → Chain (c :: r) ks r'
  | key {k r ks r'} : IsKey k → NoName r → Chain r ks r' → Chain (k ++ r) (k :: ks) r'

theorem Chain.trans {a b c : List Char} {ks ks' : List Word} (h : Chain a ks b) (h' : Chain b ks' c) : Chain a (ks ++ ks') c := by
  induction h with
  | nil => exact h'
  | white hc _ ih => exact .white hc (ih h')
  | key hk hr _ ih => exact .key hk hr (ih h')

theorem IsKey.name {k : Word} (h : IsKey k) : ∀ c ∈ k, isNameChar c = true := by
  obtain ⟨c, t, rfl, _, h1, h2, _⟩ := h
  intro d hd
  rcases List.mem_cons.1 hd with rfl | hd
  · simp [isNameChar, h1]
  · exact h2 d hd

theorem IsKey.ne {k : Word} (h : IsKey k) : k ≠ [] := by
  obtain ⟨c, t, rfl, _⟩ := h
  simp

theorem IsKey.noWhite {k : Word} (h : IsKey k) : ∀ c ∈ k, isWhitespace c = false := by
  obtain ⟨c, t, rfl, _, _, _, h3⟩ := h
  exact h3

theorem wordsFrom_key {k : Word} (hk : ∀ c ∈ k, isWhitespace c = false) (w r : List Char) :
    wordsFrom w (k ++ r) = wordsFrom (w ++ k) r := by
  induction k generalizing w with
  | nil => simp
  | cons c k ih =>
    simp only [List.cons_append, wordsFrom, hk c (by simp), Bool.false_eq_true, if_false]
    rw [ih (fun d hd => hk d (by simp [hd]))]
    simp

theorem chain_white {s : List Char} : Chain s [] (s.dropWhile isWhitespace) := by
  induction s with
  | nil => exact .nil
  | cons c s ih =>
    rw [List.dropWhile_cons]
    split
    · exact .white ‹_› ih
    · exact .nil

theorem chain_end {r : List Char} (h : r.dropWhile isWhitespace = []) : Chain r [] [] := h ▸ chain_white

/-- The words of a chain are its words. -/
theorem chain_words {s r : List Char} {ks : List Word} (h : Chain s ks r) (hr : r = []) : words s = ks := by
  induction h with
  | nil => subst hr; rfl
  | white hc _ ih => simp only [words, wordsFrom, hc, if_true]; exact ih hr
  | @key k r ks r' hk hn h1 ih =>
    have ih := ih hr
    have h0 := hk.ne
    simp only [words]
    rw [wordsFrom_key hk.noWhite]
    cases r with
    | nil =>
      simp only [words, wordsFrom, if_true] at ih
      simp [wordsFrom, h0, ← ih]
    | cons c r =>
      have hc : isWhitespace c = true := by
        generalize hr2 : c :: r = r2 at h1
        cases h1 with
        | nil => cases hr2; cases hr
        | white hc _ => cases hr2; exact hc
        | @key k' r3 ks3 _ hk' hn' _ =>
          obtain ⟨d, t, rfl, _, hs, _⟩ := hk'
          have e := (List.cons.inj hr2).1
          have := hn c _ rfl
          simp [isNameChar, e, hs] at this
      simp only [words, wordsFrom, hc, if_true] at ih
      simp [wordsFrom, hc, h0, ih]

theorem chain_cons {s r : List Char} {k : Word} {ks : List Word} (h : Chain s (k :: ks) r) :
    IsKey k ∧ ∃ r1, s.dropWhile isWhitespace = k ++ r1 ∧ NoName r1 ∧ Chain r1 ks r := by
  generalize hl : k :: ks = l at h
  induction h with
  | nil => cases hl
  | white hc _ ih => rw [List.dropWhile_cons, if_pos hc]; exact ih hl
  | @key k' r ks' r' hk hn h1 _ =>
    cases hl
    refine ⟨hk, r, ?_, hn, h1⟩
    obtain ⟨c, t, rfl, _, _, _, h3⟩ := hk
    rw [List.cons_append, List.dropWhile_cons, if_neg (by simp [h3 c (by simp)])]

theorem chain_nil {s : List Char} (h : Chain s [] []) : s.dropWhile isWhitespace = [] := by
  generalize hl : ([] : List Word) = l at h
  generalize hr : ([] : List Char) = r at h
  induction h with
  | nil => subst hr; rfl
  | white hc _ ih => rw [List.dropWhile_cons, if_pos hc]; exact ih hl hr
  | key => cases hl

/-- Ogham space mark: white space, but also a character of names. -/
def ogham : Char := Char.ofNat 0x1680

theorem name_white {c : Char} (hw : isWhitespace c = true) (hn : isNameChar c = true) : c = ogham := by
  have : c.toNat = 0x1680 := by
    simp only [isWhitespace, isNameChar, isNameStartChar, Bool.or_eq_true, Bool.and_eq_true, decide_eq_true_eq, beq_iff_eq,
      Char.isAlpha, Char.isUpper, Char.isLower, Char.isDigit] at hw hn
    have e : c.toNat = c.val.toNat := rfl
    have h1 : c ≠ ':' := by rintro rfl; revert hw; decide
    have h2 : c ≠ '_' := by rintro rfl; revert hw; decide
    have h3 : c ≠ '-' := by rintro rfl; revert hw; decide
    have h4 : c ≠ '.' := by rintro rfl; revert hw; decide
    simp only [ge_iff_le, UInt32.le_iff_toNat_le, ← e, h1, h2, h3, h4, or_false, show 'A'.val.toNat = 65 from rfl,
      show 'Z'.val.toNat = 90 from rfl, show 'a'.val.toNat = 97 from rfl, show 'z'.val.toNat = 122 from rfl,
      show '0'.val.toNat = 48 from rfl, show '9'.val.toNat = 57 from rfl] at hn
    omega
  have h2 : Char.ofNat c.toNat = c := Char.ofNat_toNat c
  rw [← h2, this]; rfl

theorem wordsFrom_chain {s : List Char} (hs : ogham ∉ s) : ∀ w, (∀ k ∈ wordsFrom w s, IsKey k) →
    ∃ k r, (w = [] ∧ Chain s (wordsFrom w s) []) ∨
      (w ≠ [] ∧ s = k ++ r ∧ (∀ c ∈ k, isWhitespace c = false) ∧ IsKey (w ++ k) ∧ NoName r ∧ ∃ ks, wordsFrom w s = (w ++ k) :: ks ∧ Chain r ks []) := by
  induction s with
  | nil =>
    intro w hw
    by_cases h0 : w = []
    · subst h0; exact ⟨[], [], .inl ⟨rfl, .nil⟩⟩
    · refine ⟨[], [], .inr ⟨h0, rfl, by simp, ?_, (by intro c t e; cases e), [], by simp [wordsFrom, h0], .nil⟩⟩
      simp only [wordsFrom, h0, if_false] at hw
      simpa using hw w (by simp)
  | cons c s ih =>
    intro w hw
    have hs' : ogham ∉ s := fun h => hs (by simp [h])
    have hc0 : c ≠ ogham := fun h => hs (by simp [h])
    by_cases hc : isWhitespace c = true
    · by_cases h0 : w = []
      · subst h0
        simp only [wordsFrom, hc, if_true] at hw ⊢
        obtain ⟨k, r, h | h⟩ := ih hs' [] hw
        · exact ⟨[], [], .inl ⟨by simp, .white hc h.2⟩⟩
        · exact absurd rfl h.1
      · simp only [wordsFrom, hc, if_true, h0, if_false] at hw ⊢
        obtain ⟨k, r, h | h⟩ := ih hs' [] (fun k hk => hw k (by simp [hk]))
        · refine ⟨[], c :: s, .inr ⟨h0, rfl, by simp, by simpa using hw w (by simp), ?_, _, by simp, .white hc h.2⟩⟩
          rintro d t e
          cases e
          cases hn : isNameChar c with
          | false => rfl
          | true => exact absurd (name_white hc hn) hc0
        · exact absurd rfl h.1
    · have hcf : isWhitespace c = false := by simpa using hc
      simp only [wordsFrom, hc, Bool.false_eq_true, if_false] at hw ⊢
      obtain ⟨k, r, h | ⟨_, rfl, h2, h3, h4, ks, h5, h6⟩⟩ := ih hs' (w ++ [c]) hw
      · exact absurd h.1 (by simp)
      · by_cases h0 : w = []
        · subst h0
          refine ⟨[], [], .inl ⟨rfl, ?_⟩⟩
          rw [h5]
          exact .key (k := c :: k) (by simpa using h3) h4 h6
        · refine ⟨c :: k, r, .inr ⟨h0, rfl, ?_, by simpa using h3, h4, ks, by simpa using h5, h6⟩⟩
          intro d hd
          rcases List.mem_cons.1 hd with rfl | hd
          · exact hcf
          · exact h2 d hd

/-- A text is a chain of its words, if these are keywords. -/
theorem words_chain {s : List Char} (hs : ogham ∉ s) (hw : ∀ k ∈ words s, IsKey k) : Chain s (words s) [] := by
  obtain ⟨k, r, h | h⟩ := wordsFrom_chain hs [] hw
  · exact h.2
  · exact absurd rfl h.1

/-! ## Reading keywords -/

theorem takeWhile_key {k r : List Char} {f : Char → Bool} (hk : ∀ c ∈ k, f c = true) (hr : ∀ c t, r = c :: t → f c = false) :
    (k ++ r).takeWhile f = k ∧ (k ++ r).dropWhile f = r := by
  induction k with
  | nil =>
    cases r with
    | nil => simp
    | cons c t => simp [hr c t rfl]
  | cons c k ih =>
    have := ih fun d hd => hk d (by simp [hd])
    simp [hk c (by simp), this.1, this.2]

theorem gIdent_key {k r : List Char} (hk : IsKey k) (hr : NoName r) : gIdent (k ++ r) = .ok k r := by
  obtain ⟨c, t, rfl, h1, h2, h3, _⟩ := hk
  have := takeWhile_key h3 hr
  simp [gIdent, h1, h2, this.1, this.2]

theorem gIdent_ok {s w r : List Char} (h : gIdent s = .ok w r) : s = w ++ r ∧ NoName r ∧
    ∃ c t, w = c :: t ∧ c.utf8Size = 1 ∧ isNameStartChar c = true ∧ ∀ d ∈ t, isNameChar d = true := by
  cases s with
  | nil => simp [gIdent] at h
  | cons c t =>
    simp only [gIdent] at h
    by_cases hc : c.utf8Size = 1
    case neg => rw [if_pos hc] at h; cases h
    · rw [if_neg (by simpa using hc)] at h
      by_cases hn : isNameStartChar c = true
      case neg => rw [if_neg hn] at h; cases h
      · rw [if_pos hn] at h
        cases h
        refine ⟨by simp, ?_, c, _, rfl, hc, hn, ?_⟩
        · intro d t' e
          have := List.head?_dropWhile_not isNameChar t
          rw [e] at this
          simpa using this
        · intro d hd
          exact List.all_eq_true.1 List.all_takeWhile d hd

theorem find_some {t : Table} {w : Word} {i : Nat} (h : find t w = some i) : t[i]? = some w := by
  induction t generalizing i with
  | nil => cases h
  | cons k t ih =>
    simp only [find] at h
    split at h
    · cases h; simp [*]
    · cases hf : find t w with
      | none => simp [hf] at h
      | some j => simp [hf] at h; subst h; simpa using ih hf

theorem find_none {t : Table} {w : Word} : find t w = none ↔ w ∉ t := by
  induction t with
  | nil => simp [find]
  | cons k t ih =>
    simp only [find]
    split
    · simp [*]
    · simp [*]

theorem find_get {t : Table} (hd : t.Nodup) {i : Nat} {w : Word} (h : t[i]? = some w) : find t w = some i := by
  induction t generalizing i with
  | nil => simp at h
  | cons k t ih =>
    simp only [find]
    cases i with
    | zero => simp at h; simp [h]
    | succ i =>
      simp at h
      have hk := (List.nodup_cons.1 hd).1
      have hw : w ∈ t := List.mem_of_getElem? h
      rw [if_neg (by rintro rfl; exact hk hw), ih (List.nodup_cons.1 hd).2 h]
      rfl

/-- All keywords of the table are words. -/
def Keys (t : Table) : Prop := ∀ k ∈ t, IsKey k

theorem gEnum_ok {t : Table} {s r : List Char} {i : Nat} (h : gEnum t s = .ok i r) :
    s = writeEnum t i ++ r ∧ NoName r ∧ t[i]? = some (writeEnum t i) ∧
      ∃ c u, writeEnum t i = c :: u ∧ c.utf8Size = 1 ∧ isNameStartChar c = true ∧ ∀ d ∈ u, isNameChar d = true := by
  unfold gEnum at h
  cases hi : gIdent s with
  | ok w r' =>
    rw [hi] at h
    simp only [Out.bind, gFind] at h
    cases hf : find t w with
    | none => simp [hf] at h
    | some j =>
      simp [hf] at h
      obtain ⟨rfl, rfl⟩ := h
      have h1 := find_some hf
      have h2 : writeEnum t j = w := by simp [writeEnum, List.getD, h1]
      rw [h2]
      have h3 := gIdent_ok hi
      exact ⟨h3.1, h3.2.1, h1, h3.2.2⟩
  | err => simp [hi, Out.bind] at h
  | panic => simp [hi, Out.bind] at h

theorem gEnum_key (t : Table) {k r : List Char} (hk : IsKey k) (hr : NoName r) : gEnum t (k ++ r) = gFind t k r := by
  simp [gEnum, gIdent_key hk hr, Out.bind]

/-- Without a name ahead nothing is read. -/
theorem gEnum_noName {t : Table} {s r : List Char} {i : Nat} (hs : NoName s) : gEnum t s ≠ .ok i r := by
  intro h
  obtain ⟨h1, _, _, c, u, h2, _, h3, _⟩ := gEnum_ok h
  rw [h2] at h1
  have := hs c _ (by rw [h1]; rfl)
  simp [isNameChar, h3] at this

theorem gEnum_chain {t : Table} (ht : Keys t) {s r : List Char} {i : Nat} (h : gEnum t s = .ok i r) :
    Chain s [writeEnum t i] r ∧ i < t.length := by
  obtain ⟨h1, h2, h3, _⟩ := gEnum_ok h
  rw [h1]
  exact ⟨.key (ht _ (List.mem_of_getElem? h3)) h2 .nil, (List.getElem?_eq_some_iff.1 h3).1⟩

instance (k : Word) : Decidable (IsKey k) :=
  match k with
  | [] => isFalse (by rintro ⟨c, t, h, _⟩; cases h)
  | c :: t => decidable_of_iff (c.utf8Size = 1 ∧ isNameStartChar c = true ∧ (∀ d ∈ t, isNameChar d = true) ∧
      ∀ d ∈ c :: t, isWhitespace d = false) (by
    constructor
    · intro h; exact ⟨c, t, rfl, h⟩
    · rintro ⟨c', t', h, h'⟩; cases h; exact h')

instance (t : Table) : Decidable (Keys t) := inferInstanceAs (Decidable (∀ k ∈ t, IsKey k))

end Verif.Keywords
