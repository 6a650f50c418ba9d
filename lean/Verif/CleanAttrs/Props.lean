import Verif.CleanAttrs.Spec

/-!
# C61: cleaning up the whitespace of attributes
-/

namespace Verif.CleanAttrs

variable {T A : Type}

/-! ## Words -/

theorem split_word {w : Text} (hw : ∀ c ∈ w, white c = false) : ∀ (cur : Text) (c : Nat) (v : Text), white c = true →
    split cur (w ++ c :: v) = (cur.reverse ++ w) :: split [] v := by
  induction w with
  | nil => intro cur c v hc; simp [split, hc]
  | cons x w ih =>
    intro cur c v hc
    rw [List.cons_append, split, if_neg (by simp [hw x (by simp)]), ih (fun c h => hw c (by simp [h])) _ c v hc]
    simp

theorem split_last {w : Text} (hw : ∀ c ∈ w, white c = false) : ∀ cur : Text, split cur w = [cur.reverse ++ w] := by
  induction w with
  | nil => intro cur; simp [split]
  | cons x w ih =>
    intro cur
    rw [split, if_neg (by simp [hw x (by simp)]), ih (fun c h => hw c (by simp [h]))]
    simp

theorem words_split {v : Text} {ws : List Text} (h : Words v ws) : splitWhitespace v = ws := by
  induction h with
  | nil => rfl
  | space hc _ ih => simp only [splitWhitespace, split, hc, if_true] at ih ⊢; simpa using ih
  | last h1 h2 => simp [splitWhitespace, split_last h2, h1]
  | word h1 h2 hc _ ih => simp only [splitWhitespace, split_word h2 [] _ _ hc] at ih ⊢; simp [h1, ih]

theorem words_exist (n : Nat) : ∀ v : Text, v.length ≤ n → ∃ ws, Words v ws := by
  induction n with
  | zero => intro v hv; rw [List.length_eq_zero_iff.mp (Nat.le_zero.mp hv)]; exact ⟨[], .nil⟩
  | succ n ih =>
    intro v hv
    cases v with
    | nil => exact ⟨[], .nil⟩
    | cons c v =>
      by_cases hc : white c = true
      · obtain ⟨ws, h⟩ := ih v (by simp at hv; omega)
        exact ⟨ws, .space hc h⟩
      · have hw : ∀ x ∈ (c :: v).takeWhile (fun x => !white x), white x = false := by
          intro x hx
          have := List.all_eq_true.mp List.all_takeWhile x hx
          simpa using this
        have hne : (c :: v).takeWhile (fun x => !white x) ≠ [] := by simp [hc]
        have e := List.takeWhile_append_dropWhile (p := fun x => !white x) (l := c :: v)
        cases hd : (c :: v).dropWhile (fun x => !white x) with
        | nil =>
          rw [hd, List.append_nil] at e
          rw [← e]
          exact ⟨_, .last hne hw⟩
        | cons d u =>
          have hdw : white d = true := by
            have := List.head_dropWhile_not (fun x => !white x) (l := c :: v) (by rw [hd]; simp)
            simpa [hd] using this
          rw [hd] at e
          obtain ⟨ws, h⟩ := ih u (by
            have := congrArg List.length e
            simp only [List.length_append, List.length_cons] at this hv
            have := List.length_pos_iff.mpr hne
            omega)
          rw [← e]
          exact ⟨_, .word hne hw hdw h⟩

theorem words_self (v : Text) : Words v (splitWhitespace v) := by
  obtain ⟨ws, h⟩ := words_exist v.length v (Nat.le_refl _)
  rwa [words_split h]

theorem words_iff {v : Text} {ws : List Text} : Words v ws ↔ splitWhitespace v = ws :=
  ⟨words_split, fun h => h ▸ words_self v⟩

theorem words_nonempty {v : Text} {ws : List Text} (h : Words v ws) : ∀ w ∈ ws, w ≠ [] ∧ ∀ c ∈ w, white c = false := by
  induction h with
  | nil => simp
  | space _ _ ih => exact ih
  | last h1 h2 => simpa using ⟨h1, h2⟩
  | word h1 h2 _ _ ih =>
    intro x hx
    rcases List.mem_cons.mp hx with rfl | hx
    · exact ⟨h1, h2⟩
    · exact ih x hx

theorem words_newlines {v : Text} {ws : List Text} (h : Words v ws) : Words (replaceNewlines v) ws := by
  have hid : ∀ w : Text, (∀ c ∈ w, white c = false) → replaceNewlines w = w := by
    intro w hw
    rw [replaceNewlines]
    conv => rhs; rw [← List.map_id w]
    refine List.map_congr_left fun c hc => ?_
    rw [if_neg]; rfl
    rintro rfl
    exact absurd (hw 10 hc) (by decide)
  have hsp : ∀ c, white c = true → white (if c = 10 then 32 else c) = true := by
    intro c hc
    split
    · decide
    · exact hc
  induction h with
  | nil => exact .nil
  | space hc _ ih => exact .space (hsp _ hc) ih
  | last h1 h2 => rw [hid _ h2]; exact .last h1 h2
  | word h1 h2 hc _ ih =>
    rename_i w v c ws _
    have : replaceNewlines (w ++ c :: v) = w ++ (if c = 10 then 32 else c) :: replaceNewlines v := by
      conv => rhs; rw [← hid w h2]
      simp [replaceNewlines]
    rw [this]
    exact .word h1 h2 (hsp _ hc) ih

theorem words_white : ∀ s : Text, (∀ c ∈ s, white c = true) → Words s []
  | [], _ => .nil
  | c :: s, h => .space (h c (by simp)) (words_white s fun x hx => h x (by simp [hx]))

theorem words_end {v : Text} {ws : List Text} (h : Words v ws) {s : Text} (hs : ∀ c ∈ s, white c = true) : Words (v ++ s) ws := by
  induction h with
  | nil => exact words_white s hs
  | space hc _ ih => exact .space hc ih
  | last h1 h2 =>
    cases s with
    | nil => rw [List.append_nil]; exact .last h1 h2
    | cons c s => exact .word h1 h2 (hs c (by simp)) (words_white s fun x hx => hs x (by simp [hx]))
  | word h1 h2 hc _ ih => rw [List.append_assoc, List.cons_append]; exact .word h1 h2 hc ih

theorem split_start (s v : Text) (hs : ∀ c ∈ s, white c = true) : splitWhitespace (s ++ v) = splitWhitespace v := by
  induction s with
  | nil => rfl
  | cons c s ih =>
    rw [← ih fun x hx => hs x (by simp [hx])]
    simp [splitWhitespace, split, hs c (by simp)]

/-- What is trimmed is whitespace. -/
theorem trim_eq (v : Text) : ∃ s s', v = s ++ trim v ++ s' ∧ (∀ c ∈ s, white c = true) ∧ ∀ c ∈ s', white c = true := by
  refine ⟨v.takeWhile white, ((v.dropWhile white).reverse.takeWhile white).reverse, ?_, fun c hc => List.all_eq_true.mp List.all_takeWhile c hc, ?_⟩
  · rw [trim, List.append_assoc, ← List.reverse_append, List.takeWhile_append_dropWhile, List.reverse_reverse, List.takeWhile_append_dropWhile]
  · intro c hc
    exact List.all_eq_true.mp List.all_takeWhile c (List.mem_reverse.mp hc)

theorem split_trim (v : Text) : splitWhitespace (trim v) = splitWhitespace v := by
  obtain ⟨s, s', e, h1, h2⟩ := trim_eq v
  conv => rhs; rw [e, List.append_assoc, split_start s _ h1]
  exact (words_split (words_end (words_self (trim v)) h2)).symm

theorem join_eq (ws : List Text) : join ws = List.intercalate [32] ws := by
  induction ws with
  | nil => rfl
  | cons w ws ih =>
    cases ws with
    | nil => simp [join, List.intercalate]
    | cons x ws => simp only [join, ih, List.intercalate, List.intersperse_cons_cons, List.flatten_cons, List.singleton_append]

theorem words_join : ∀ ws : List Text, (∀ w ∈ ws, w ≠ [] ∧ ∀ c ∈ w, white c = false) → Words (join ws) ws
  | [], _ => .nil
  | [w], h => .last (h w (by simp)).1 (h w (by simp)).2
  | w :: x :: ws, h => .word (h w (by simp)).1 (h w (by simp)).2 (by decide) (words_join (x :: ws) fun y hy => h y (by simp [hy]))

theorem split_clean (o : Options) (v : Text) : splitWhitespace (clean o v) = splitWhitespace v := by
  have h1 : ∀ v, splitWhitespace (if o.newlines then replaceNewlines v else v) = splitWhitespace v := by
    intro v
    split
    · exact words_split (words_newlines (words_self v))
    · rfl
  have h2 : ∀ v, splitWhitespace (if o.trim then trim v else v) = splitWhitespace v := by
    intro v
    split
    · exact split_trim v
    · rfl
  have h3 : ∀ v, splitWhitespace (if o.spaces then join (splitWhitespace v) else v) = splitWhitespace v := by
    intro v
    split
    · exact words_split (words_join _ (words_nonempty (words_self v)))
    · rfl
  rw [clean, h3, h2, h1]

/-! ## What is clean -/

theorem join_length {v : Text} {ws : List Text} (h : Words v ws) : (join ws).length ≤ v.length := by
  induction h with
  | nil => simp [join]
  | space _ _ ih => simp only [List.length_cons]; omega
  | last => simp [join]
  | word _ _ _ _ ih =>
    rename_i w v c ws _ _ _ _
    cases ws with
    | nil => simp [join]
    | cons x ws => simp only [join, List.length_append, List.length_cons] at ih ⊢; omega

theorem trim_length (v : Text) : (trim v).length ≤ v.length := by
  obtain ⟨s, s', e, _⟩ := trim_eq v
  have := congrArg List.length e
  simp only [List.length_append] at this
  omega

theorem clean_length (o : Options) (v : Text) : (clean o v).length ≤ v.length := by
  have h1 : ∀ v, (if o.newlines then replaceNewlines v else v).length ≤ v.length := by
    intro v; split <;> simp [replaceNewlines]
  have h2 : ∀ v, (if o.trim then trim v else v).length ≤ v.length := by
    intro v
    split
    · exact trim_length v
    · exact Nat.le_refl _
  have h3 : ∀ v, (if o.spaces then join (splitWhitespace v) else v).length ≤ v.length := by
    intro v
    split
    · exact join_length (words_self v)
    · exact Nat.le_refl _
  exact Nat.le_trans (h3 _) (Nat.le_trans (h2 _) (h1 v))

theorem join_mem {ws : List Text} {c : Nat} (h : c ∈ join ws) : c = 32 ∨ ∃ w ∈ ws, c ∈ w := by
  induction ws with
  | nil => simp [join] at h
  | cons w ws ih =>
    cases ws with
    | nil => exact .inr ⟨w, by simp, h⟩
    | cons x ws =>
      simp only [join, List.mem_append, List.mem_cons] at h
      rcases h with h | h | h
      · exact .inr ⟨w, by simp, h⟩
      · exact .inl h
      · rcases ih h with h | ⟨y, hy, h⟩
        · exact .inl h
        · exact .inr ⟨y, by simp [hy], h⟩

theorem join_ends : ∀ (ws : List Text), (∀ w ∈ ws, w ≠ [] ∧ ∀ c ∈ w, white c = false) →
    (∀ c, (join ws).head? = some c → white c = false) ∧ ∀ c, (join ws).getLast? = some c → white c = false
  | [], _ => by simp [join]
  | [w], h => ⟨fun c hc => (h w (by simp)).2 c (List.mem_of_head? hc), fun c hc => (h w (by simp)).2 c (List.mem_of_getLast? hc)⟩
  | w :: x :: ws, h => by
    obtain ⟨hw1, hw2⟩ := h w (by simp)
    have ih := join_ends (x :: ws) fun y hy => h y (by simp [hy])
    have hx := (h x (by simp)).1
    have hne : join (x :: ws) ≠ [] := by
      cases ws with
      | nil => exact hx
      | cons y ws => simp [join]
    constructor
    · intro c hc
      cases w with
      | nil => exact absurd rfl hw1
      | cons d w =>
        rw [join, List.cons_append, List.head?_cons, Option.some.injEq] at hc
        · exact hc ▸ hw2 d (by simp)
        · simp
    · intro c hc
      rw [join, List.getLast?_append, List.getLast?_cons] at hc
      · cases e : (join (x :: ws)).getLast? with
        | none => exact absurd (List.getLast?_eq_none_iff.mp e) hne
        | some d =>
          simp only [e, Option.getD_some, Option.or_some, Option.some.injEq] at hc
          exact ih.2 c (hc ▸ e)
      · simp

theorem dropWhile_head (v : Text) (c : Nat) (h : (v.dropWhile white).head? = some c) : white c = false := by
  induction v with
  | nil => simp at h
  | cons x v ih =>
    rw [List.dropWhile_cons] at h
    split at h
    · exact ih h
    · next hx => simp only [List.head?_cons, Option.some.injEq] at h; subst h; simpa using hx

theorem trim_ends (v : Text) : (∀ c, (trim v).head? = some c → white c = false) ∧ ∀ c, (trim v).getLast? = some c → white c = false := by
  constructor
  · intro c hc
    have hsub : ∃ s', v.dropWhile white = trim v ++ s' :=
      ⟨((v.dropWhile white).reverse.takeWhile white).reverse, by
        rw [trim, ← List.reverse_append, List.takeWhile_append_dropWhile, List.reverse_reverse]⟩
    obtain ⟨s', e⟩ := hsub
    refine dropWhile_head v c ?_
    rw [e, List.head?_append, hc]
    rfl
  · intro c hc
    rw [trim, List.getLast?_reverse] at hc
    exact dropWhile_head _ c hc

theorem clean_clean (o : Options) (v : Text) : Clean o (clean o v) := by
  refine ⟨?_, ?_, ?_⟩
  · intro h hm
    have hn : 10 ∉ replaceNewlines v := by
      intro hm
      obtain ⟨c, _, e⟩ := List.mem_map.mp hm
      split at e <;> simp_all
    have ht : 10 ∉ (if o.trim then trim (replaceNewlines v) else replaceNewlines v) := by
      split
      · intro hm
        obtain ⟨s, s', e, _⟩ := trim_eq (replaceNewlines v)
        exact hn (by rw [e]; simp [hm])
      · exact hn
    simp only [clean, h, if_true] at hm
    split at hm
    · rcases join_mem hm with h | ⟨w, hw, h⟩
      · exact absurd h (by decide)
      · exact absurd ((words_nonempty (words_self _) w hw).2 10 h) (by decide)
    · exact ht hm
  · intro h
    rw [clean]
    simp only [h, if_true]
    split
    · exact join_ends _ (words_nonempty (words_self _))
    · exact trim_ends _
  · intro h
    refine ⟨_, words_self _, ?_⟩
    rw [split_clean]
    have : clean o v = join (splitWhitespace (if o.trim then trim (if o.newlines then replaceNewlines v else v) else
      (if o.newlines then replaceNewlines v else v))) := by simp only [clean, h, if_true]
    rw [this, ← join_eq]
    congr 1
    have := split_clean { o with spaces := false } v
    simpa [clean] using this

theorem clean_fixed {o : Options} {v : Text} (h : Clean o v) : clean o v = v := by
  have h1 : (if o.newlines then replaceNewlines v else v) = v := by
    split
    · next hn =>
      rw [replaceNewlines]
      conv => rhs; rw [← List.map_id v]
      refine List.map_congr_left fun c hc => ?_
      rw [if_neg]; rfl
      rintro rfl
      exact h.newlines hn hc
    · rfl
  have h2 : (if o.trim then trim v else v) = v := by
    split
    · next hn =>
      obtain ⟨a, b⟩ := h.trim hn
      have e1 : v.dropWhile white = v := by
        cases v with
        | nil => rfl
        | cons c v => rw [List.dropWhile_cons, if_neg (by simp [a c rfl])]
      rw [trim, e1]
      have e2 : v.reverse.dropWhile white = v.reverse := by
        cases e : v.reverse with
        | nil => rfl
        | cons c u =>
          have : v.getLast? = some c := by rw [← List.head?_reverse, e]; rfl
          rw [List.dropWhile_cons, if_neg (by simp [b c this])]
      rw [e2, List.reverse_reverse]
    · rfl
  have h3 : (if o.spaces then join (splitWhitespace v) else v) = v := by
    split
    · next hn =>
      obtain ⟨ws, hw, e⟩ := h.spaces hn
      rw [words_split hw, join_eq, ← e]
    · rfl
  rw [clean]
  simp only [h1, h2, h3]

/-! ## C61 -/

/-- What should hold for a text before and after. -/
def Good (o : Options) (v v' : Text) : Prop := (∀ ws, Words v' ws ↔ Words v ws) ∧ Clean o v' ∧ v'.length ≤ v.length ∧ (Clean o v → v' = v)

theorem clean_good (o : Options) (v : Text) : Good o v (clean o v) :=
  ⟨fun ws => by rw [words_iff, words_iff, split_clean], clean_clean o v, clean_length o v, clean_fixed⟩

mutual
theorem job_same (o : Options) (R : Text → Text → Prop) (hR : ∀ v, R v (clean o v)) : ∀ t : Node T A, Same R t (job o t)
  | .leaf a => .leaf a
  | .elem n as ks => .elem n (attrs_same o R hR as) (jobAll_same o R hR ks)
theorem jobAll_same (o : Options) (R : Text → Text → Prop) (hR : ∀ v, R v (clean o v)) : ∀ ks : List (Node T A), SameAll R ks (jobAll o ks)
  | [] => .nil
  | k :: l => .cons (job_same o R hR k) (jobAll_same o R hR l)
theorem attrs_same (o : Options) (R : Text → Text → Prop) (hR : ∀ v, R v (clean o v)) : ∀ as : List (Attr T), SameAttrs R as (as.map (cleanAttr o))
  | [] => trivial
  | a :: l => by
    refine ⟨⟨rfl, rfl, ?_⟩, attrs_same o R hR l⟩
    cases e : a.text with
    | none => exact .inl ⟨rfl, by simp [cleanAttr, e]⟩
    | some v => exact .inr ⟨v, clean o v, rfl, by simp [cleanAttr, e], hR v⟩
end

/-- **C61 (words)**: for every document and all options, elements, other nodes, names and all attributes that are not text stay; the texts of the
others have the same words, are as clean as the options ask for, are not longer, and stay if they are clean already. -/
theorem words_kept (o : Options) (t : Node T A) :
    Same (fun v v' => (∀ ws, Words v' ws ↔ Words v ws) ∧ Clean o v' ∧ v'.length ≤ v.length ∧ (Clean o v → v' = v)) t (job o t) :=
  job_same o _ (clean_good o) t

/-- **C61 (the same reading)**: an attribute that is read as a list of words is read the same. -/
theorem list_kept (o : Options) (t : Node T A) {B : Type} (read : Text → B)
    (hread : ∀ v v', (∀ ws, Words v' ws ↔ Words v ws) → read v' = read v) : Same (fun v v' => read v' = read v) t (job o t) :=
  job_same o _ (fun v => hread v _ (clean_good o v).1) t

/-- **C61 (default)**: with the default options, a text becomes its words with one space between them. -/
theorem joined (o : Options) (ho : o.spaces = true) (t : Node T A) :
    Same (fun v v' => ∀ ws, Words v ws → v' = List.intercalate [32] ws) t (job o t) := by
  refine job_same o _ (fun v ws hw => ?_) t
  obtain ⟨ws', hw', e⟩ := (clean_clean o v).spaces ho
  rw [e, ← words_split ((clean_good o v).1 ws' |>.mp hw'), words_split hw]

/-- **C61 (off)**: without options nothing changes. -/
theorem off (t : Node T A) : Same (fun v v' => v' = v) t (job ⟨false, false, false⟩ t) :=
  job_same ⟨false, false, false⟩ (fun v v' => v' = v) (fun _ => rfl) t

mutual
/-- **C61 (again)**: running the job again changes nothing. -/
theorem again (o : Options) : ∀ t : Node T A, job o (job o t) = job o t
  | .leaf a => rfl
  | .elem n as ks => by
    simp only [job, againAll o ks, List.map_map]
    congr 1
    refine List.map_congr_left fun a _ => ?_
    simp only [cleanAttr, Function.comp, Option.map_map]
    congr 1
    refine Option.map_congr fun v _ => ?_
    exact clean_fixed (clean_clean o v)
theorem againAll (o : Options) : ∀ ks : List (Node T A), jobAll o (jobAll o ks) = jobAll o ks
  | [] => rfl
  | k :: l => by simp only [jobAll, again o k, againAll o l]
end

/-- **C61 (what whitespace is)**: exactly the characters with the property `White_Space` of Unicode separate words. -/
theorem white_iff (c : Nat) : white c = true ↔ c ∈ [9, 10, 11, 12, 13, 0x20, 0x85, 0xa0, 0x1680, 0x2000, 0x2001, 0x2002, 0x2003, 0x2004, 0x2005, 0x2006, 0x2007, 0x2008, 0x2009, 0x200a, 0x2028, 0x2029, 0x202f, 0x205f,
    0x3000] := by
  simp only [white, Bool.or_eq_true, Bool.and_eq_true, beq_iff_eq, decide_eq_true_eq, List.mem_cons, List.not_mem_nil, or_false]
  omega

end Verif.CleanAttrs
