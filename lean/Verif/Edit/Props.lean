import Mathlib.Logic.Function.Iterate
import Verif.Edit.Model

/-!
# The actions `attr` and `style`
-/

namespace Verif.Edit

section

variable {K D : Type} [DecidableEq K]

/-! ## Attributes by name -/

theorem get_set (k k' : K) (v : Val D) (l : List (K × Val D)) : get k' (setNamed k v l) = if k' = k then some v else get k' l := by
  induction l with
  | nil => simp [setNamed, get, eq_comm]
  | cons a l ih =>
    unfold setNamed
    by_cases h : a.1 = k
    · rw [if_pos h]
      by_cases h' : k' = k
      · simp [get, h']
      · have : ¬ k = k' := fun e => h' e.symm
        simp [get, h, h', this]
    · rw [if_neg h]
      by_cases h' : k' = k
      · have : ¬ a.1 = k' := by rw [h']; exact h
        rw [get, if_neg this, ih, if_pos h', if_pos h']
      · rw [get, get, ih, if_neg h']
        simp [h']

theorem set_names (k : K) (v : Val D) (l : List (K × Val D)) :
    (setNamed k v l).map Prod.fst = if k ∈ l.map Prod.fst then l.map Prod.fst else l.map Prod.fst ++ [k] := by
  induction l with
  | nil => simp [setNamed]
  | cons a l ih =>
    unfold setNamed
    by_cases h : a.1 = k
    · simp [h]
    · rw [if_neg h, List.map_cons, ih]
      have : ¬ k = a.1 := fun e => h e.symm
      by_cases hk : k ∈ l.map Prod.fst
      · rw [if_pos hk, if_pos (by simp only [List.map_cons, List.mem_cons]; exact .inr hk)]; rfl
      · rw [if_neg hk, if_neg (by simp only [List.map_cons, List.mem_cons, not_or]; exact ⟨this, hk⟩)]; rfl

theorem set_set (k : K) (v w : Val D) (l : List (K × Val D)) : setNamed k w (setNamed k v l) = setNamed k w l := by
  induction l with
  | nil => simp [setNamed]
  | cons a l ih =>
    by_cases h : a.1 = k
    · simp [setNamed, h]
    · simp [setNamed, h, ih]

/-! ## The loop -/

/-- A body that changes its own node only. -/
theorem loop_ok {f : Doc K D → Nat → Res (Doc K D)} {h : Nat → Node K D → Node K D}
    (hf : ∀ doc id, f doc id = .ok fun i => if i = id then (doc i).map (h id) else doc i) (ids : List Nat) :
    ∀ doc, loop f doc ids = .ok fun i => (doc i).map (h i)^[ids.count i] := by
  induction ids with
  | nil => intro doc; simp [loop]
  | cons j ids ih =>
    intro doc
    rw [loop, hf]
    dsimp only
    rw [ih]
    congr 1
    funext i
    by_cases hi : i = j
    · subst hi
      rw [if_pos rfl, Option.map_map, List.count_cons_self, Function.iterate_succ]
    · have : (j == i) = false := by simpa using fun e => hi e.symm
      rw [if_neg hi, List.count_cons, this]
      simp

/-- What `attr` does with a node. -/
def attrNode (known : Nat → List Char → Option K) (name value : List Char) (id : Nat) : Node K D → Node K D
  | .element e => match known id name with
    | none => .element e
    | some k => .element ⟨setNamed k (.text value) e.attrs⟩
  | .other => .other

theorem attr_body {known : Nat → List Char → Option K} {name value : List Char} (hc : colons name ≤ 1) (doc : Doc K D) (id : Nat) :
    attrOne known name value doc id = .ok fun i => if i = id then (doc i).map (attrNode known name value id) else doc i := by
  have same : ∀ x : Option (Node K D), doc id = x → x.map (attrNode known name value id) = x →
      doc = fun i => if i = id then (doc i).map (attrNode known name value id) else doc i := by
    intro x hx hm
    funext i
    by_cases hi : i = id
    · subst hi; rw [if_pos rfl, hx, hm]
    · rw [if_neg hi]
  unfold attrOne
  split
  · next e he =>
    rw [if_neg (by omega)]
    split
    · next hk => rw [← same _ he (by simp [attrNode, hk])]
    · next k hk =>
      congr 1
      funext i
      unfold put
      by_cases hi : i = id
      · subst hi; simp [he, attrNode, hk]
      · simp [hi]
  · next h =>
    cases hd : doc id with
    | none => rw [← same _ hd rfl]
    | some n => cases n with
      | other => rw [← same _ hd rfl]
      | element e => exact absurd hd (h e)

theorem attr_twice (known : Nat → List Char → Option K) (name value : List Char) (id : Nat) (n : Node K D) :
    attrNode known name value id (attrNode known name value id n) = attrNode known name value id n := by
  cases n with
  | other => rfl
  | element e => cases hk : known id name <;> simp [attrNode, hk, set_set]

theorem iterate_idem {α : Type} {f : α → α} (hf : ∀ x, f (f x) = f x) (x : α) : ∀ n, 0 < n → f^[n] x = f x
  | 1, _ => rfl
  | n + 2, _ => by rw [Function.iterate_succ_apply', iterate_idem hf x (n + 1) (by omega), hf]

/-- **C99 (attr)** Every selected element that knows the name has the value afterwards, however often it was selected; its other
attributes keep their values and their order, a new one comes last, and all other nodes are as before. -/
theorem attr_done {known : Nat → List Char → Option K} {name value : List Char} (hc : name.count ':' ≤ 1) (ids : List Nat) (doc : Doc K D) :
    ∃ doc', attr known name value (some ids) doc = .ok doc' ∧ ∀ i,
      (∀ e k, i ∈ ids → doc i = some (.element e) → known i name = some k →
        ∃ e', doc' i = some (.element e') ∧ get k e'.attrs = some (.text value) ∧ (∀ k', k' ≠ k → get k' e'.attrs = get k' e.attrs) ∧
          e'.attrs.map Prod.fst = if k ∈ e.attrs.map Prod.fst then e.attrs.map Prod.fst else e.attrs.map Prod.fst ++ [k]) ∧
      ((i ∉ ids ∨ known i name = none ∨ ∀ e, doc i ≠ some (.element e)) → doc' i = doc i) := by
  refine ⟨_, loop_ok (attr_body hc) ids doc, fun i => ⟨?_, ?_⟩⟩
  · intro e k hi he hk
    refine ⟨⟨setNamed k (.text value) e.attrs⟩, ?_, ?_, ?_, ?_⟩
    · rw [he, Option.map_some, iterate_idem (attr_twice known name value i) _ _ (List.count_pos_iff.mpr hi)]
      simp [attrNode, hk]
    · simp [get_set]
    · intro k' h; simp [get_set, h]
    · exact set_names k _ _
  · intro h
    rcases h with h | h | h
    · rw [List.count_eq_zero_of_not_mem h]; simp
    · have : ∀ n : Node K D, attrNode known name value i n = n := by intro n; cases n <;> simp [attrNode, h]
      have : attrNode (D := D) known name value i = id := funext this
      rw [this, Function.iterate_id, Option.map_id]; rfl
    · cases hd : doc i with
      | none => rfl
      | some n => cases n with
        | element e => exact absurd hd (h e)
        | other =>
          have : ∀ m, (attrNode known name value i)^[m] (Node.other : Node K D) = .other := by
            intro m
            induction m with
            | zero => rfl
            | succ m ih => rw [Function.iterate_succ_apply', ih]; rfl
          simp [this]

/-- **C99 (violated)** A name with two colons ends the program if an element is selected, instead of an error. -/
theorem attr_panics_violated {known : Nat → List Char → Option K} {name value : List Char} (hc : 1 < name.count ':') {ids : List Nat}
    {doc : Doc K D} (h : ∃ i ∈ ids, ∃ e, doc i = some (.element e)) : attr known name value (some ids) doc = .panic := by
  show loop _ doc ids = .panic
  induction ids with
  | nil => obtain ⟨i, hi, _⟩ := h; simp at hi
  | cons j ids ih =>
    rw [loop]
    unfold attrOne
    cases hd : doc j with
    | some n => cases n with
      | element e =>
        have : 1 < colons name := hc
        simp [this]
      | other =>
        dsimp only
        apply ih
        obtain ⟨i, hi, e, he⟩ := h
        rcases List.mem_cons.mp hi with rfl | hi
        · rw [hd] at he; cases he
        · exact ⟨i, hi, e, he⟩
    | none =>
      dsimp only
      apply ih
      obtain ⟨i, hi, e, he⟩ := h
      rcases List.mem_cons.mp hi with rfl | hi
      · rw [hd] at he; cases he
      · exact ⟨i, hi, e, he⟩

/-! ## Styles -/

/-- The declarations of an element, the important ones first. -/
def declared (key : K) (e : El K D) : List D × List D :=
  match get key e.attrs with
  | some (.style i n) => (i, n)
  | _ => ([], [])

/-- What `style` does with a node. -/
def styleNode (key : K) (imp : Bool) (permits : Nat → Bool) (d : D) (id : Nat) : Node K D → Node K D
  | .element e => if permits id then .element ⟨add key imp d e.attrs⟩ else .element e
  | .other => .other

variable {key : K} {isWhite : Char → Bool} {permits : Nat → Bool} {css : List Char → List Char → Option D} {property value : List Char}

theorem style_body {d : D} (hd : css property (important isWhite value).1 = some d) (doc : Doc K D) (id : Nat) :
    styleOne key isWhite permits css property value doc id =
      .ok fun i => if i = id then (doc i).map (styleNode key (important isWhite value).2 permits d id) else doc i := by
  have same : ∀ x : Option (Node K D), doc id = x → x.map (styleNode key (important isWhite value).2 permits d id) = x →
      doc = fun i => if i = id then (doc i).map (styleNode key (important isWhite value).2 permits d id) else doc i := by
    intro x hx hm
    funext i
    by_cases hi : i = id
    · subst hi; rw [if_pos rfl, hx, hm]
    · rw [if_neg hi]
  unfold styleOne
  split
  · next e he =>
    by_cases hp : permits id = true
    · rw [if_pos hp, hd]
      dsimp only
      congr 1
      funext i
      unfold put
      by_cases hi : i = id
      · subst hi; simp [he, styleNode, hp]
      · simp [hi]
    · rw [if_neg hp, ← same _ he (by simp [styleNode, hp])]
  · next h =>
    cases hd : doc id with
    | none => rw [← same _ hd rfl]
    | some n => cases n with
      | other => rw [← same _ hd rfl]
      | element e => exact absurd hd (h e)

theorem add_declared (imp : Bool) (d : D) (e : El K D) : declared key ⟨add key imp d e.attrs⟩ =
    (if imp then ((declared key e).1 ++ [d], (declared key e).2) else ((declared key e).1, (declared key e).2 ++ [d])) ∧
    ∀ k', k' ≠ key → get k' (add key imp d e.attrs) = get k' e.attrs := by
  unfold declared add
  refine ⟨?_, ?_⟩
  · cases h : get key e.attrs with
    | none => cases imp <;> simp [get_set]
    | some v => cases v <;> cases imp <;> simp [get_set]
  · intro k' hk
    cases h : get key e.attrs with
    | none => simp [get_set, hk]
    | some v => cases v <;> simp [get_set, hk]

theorem style_iterate {imp : Bool} {d : D} {i : Nat} (hp : permits i = true) (e : El K D) : ∀ n,
    ∃ e', (styleNode key imp permits d i)^[n] (.element e) = .element e' ∧
      declared key e' = (if imp then ((declared key e).1 ++ List.replicate n d, (declared key e).2)
        else ((declared key e).1, (declared key e).2 ++ List.replicate n d)) ∧
      ∀ k', k' ≠ key → get k' e'.attrs = get k' e.attrs
  | 0 => ⟨e, rfl, by cases imp <;> simp, fun _ _ => rfl⟩
  | n + 1 => by
    obtain ⟨e', h1, h2, h3⟩ := style_iterate hp e n
    refine ⟨⟨add key imp d e'.attrs⟩, ?_, ?_, ?_⟩
    · rw [Function.iterate_succ_apply', h1]; simp [styleNode, hp]
    · rw [(add_declared imp d e').1, h2, List.replicate_succ']
      cases imp <;> simp
    · intro k' hk
      rw [(add_declared imp d e').2 k' hk, h3 k' hk]

/-- **C99 (style)** Every selected element that accepts `style` has the declaration behind its former ones, once for each time it
was selected, among the important ones if the value says so; its former declarations and its other attributes are kept, and
all other nodes are as before. -/
theorem style_done {d : D} (hd : css property (important isWhite value).1 = some d) (ids : List Nat) (doc : Doc K D) :
    ∃ doc', style key isWhite permits css property value (some ids) doc = .ok doc' ∧ ∀ i,
      (∀ e, doc i = some (.element e) → permits i = true → ∃ e', doc' i = some (.element e') ∧
        declared key e' = (if (important isWhite value).2 then ((declared key e).1 ++ List.replicate (ids.count i) d, (declared key e).2)
          else ((declared key e).1, (declared key e).2 ++ List.replicate (ids.count i) d)) ∧
        ∀ k', k' ≠ key → get k' e'.attrs = get k' e.attrs) ∧
      ((i ∉ ids ∨ permits i = false ∨ ∀ e, doc i ≠ some (.element e)) → doc' i = doc i) := by
  refine ⟨_, loop_ok (style_body hd) ids doc, fun i => ⟨?_, ?_⟩⟩
  · intro e he hp
    obtain ⟨e', h1, h2, h3⟩ := style_iterate (key := key) (imp := (important isWhite value).2) (d := d) hp e (ids.count i)
    exact ⟨e', by rw [he, Option.map_some, h1], h2, h3⟩
  · intro h
    rcases h with h | h | h
    · rw [List.count_eq_zero_of_not_mem h]; simp
    · have : ∀ n : Node K D, styleNode key (important isWhite value).2 permits d i n = n := by intro n; cases n <;> simp [styleNode, h]
      have : styleNode key (important isWhite value).2 permits d i = id := funext this
      rw [this, Function.iterate_id, Option.map_id]; rfl
    · cases hd : doc i with
      | none => rfl
      | some n => cases n with
        | element e => exact absurd hd (h e)
        | other =>
          have : ∀ m, (styleNode key (important isWhite value).2 permits d i)^[m] (Node.other : Node K D) = .other := by
            intro m
            induction m with
            | zero => rfl
            | succ m ih => rw [Function.iterate_succ_apply', ih]; rfl
          simp [this]

/-- **C99 (style, errors)** If the property or its value cannot be read, nothing is changed; there is an error exactly if an element
that accepts `style` is selected. -/
theorem style_error (hd : css property (important isWhite value).1 = none) (ids : List Nat) (doc : Doc K D) :
    ((∃ i ∈ ids, permits i = true ∧ ∃ e, doc i = some (.element e)) → style key isWhite permits css property value (some ids) doc = .err doc) ∧
    ((¬ ∃ i ∈ ids, permits i = true ∧ ∃ e, doc i = some (.element e)) → style key isWhite permits css property value (some ids) doc = .ok doc) := by
  show (_ → loop _ doc ids = _) ∧ (_ → loop _ doc ids = _)
  induction ids with
  | nil => exact ⟨fun h => by simp at h, fun _ => rfl⟩
  | cons j ids ih =>
    rw [loop]
    by_cases hj : permits j = true ∧ ∃ e, doc j = some (.element e)
    · obtain ⟨hp, e, he⟩ := hj
      have : styleOne key isWhite permits css property value doc j = .err doc := by simp [styleOne, he, hp, hd]
      rw [this]
      exact ⟨fun _ => rfl, fun h => absurd ⟨j, by simp, hp, e, he⟩ h⟩
    · have : styleOne key isWhite permits css property value doc j = .ok doc := by
        unfold styleOne
        split
        · next e he => rw [if_neg fun hp => hj ⟨hp, e, he⟩]
        · rfl
      rw [this]
      dsimp only
      have hiff : (∃ i ∈ j :: ids, permits i = true ∧ ∃ e, doc i = some (.element e)) ↔ ∃ i ∈ ids, permits i = true ∧ ∃ e, doc i = some (.element e) := by
        constructor
        · rintro ⟨i, hi, h⟩
          rcases List.mem_cons.mp hi with rfl | hi
          · exact absurd h hj
          · exact ⟨i, hi, h⟩
        · rintro ⟨i, hi, h⟩; exact ⟨i, by simp [hi], h⟩
      rw [hiff]
      exact ih

/-! ## The word behind a value -/

theorem word_length : word.length = 10 := by decide +kernel

theorem prefix_word {l : List Char} : word.isPrefixOf l = true ↔ ∃ r, l = word ++ r := by
  rw [List.isPrefixOf_iff_prefix]
  exact ⟨fun ⟨r, h⟩ => ⟨r, h.symm⟩, fun ⟨r, h⟩ => ⟨r, h.symm⟩⟩

/-- The word is found where it stands first. -/
theorem split_iff (l a b : List Char) : splitOnce l = some (a, b) ↔
    l = a ++ word ++ b ∧ ∀ x y, l = x ++ word ++ y → a.length ≤ x.length := by
  induction l generalizing a with
  | nil =>
    simp only [splitOnce, reduceCtorEq, false_iff]
    rintro ⟨h, _⟩
    have := congrArg List.length h
    simp only [List.length_nil, List.length_append, word_length] at this
    omega
  | cons c l ih =>
    unfold splitOnce
    by_cases hp : word.isPrefixOf (c :: l) = true
    · rw [if_pos hp]
      obtain ⟨r, hr⟩ := prefix_word.mp hp
      have hdrop : (c :: l).drop 10 = r := by rw [hr, ← word_length, List.drop_left]
      rw [hdrop, Option.some.injEq, Prod.mk.injEq]
      constructor
      · rintro ⟨rfl, rfl⟩
        exact ⟨by simpa using hr, fun _ _ _ => Nat.zero_le _⟩
      · rintro ⟨h1, h2⟩
        have h3 := h2 [] r (by simpa using hr)
        have ha : a = [] := List.length_eq_zero_iff.mp (by simpa using h3)
        subst ha
        rw [hr] at h1
        simp only [List.nil_append, List.append_cancel_left_eq] at h1
        exact ⟨rfl, h1⟩
    · rw [if_neg hp]
      cases a with
      | nil =>
        constructor
        · intro h
          cases hs : splitOnce l <;> rw [hs] at h <;> simp at h
        · rintro ⟨h, _⟩
          exact absurd (prefix_word.mpr ⟨b, by simpa using h⟩) hp
      | cons a0 a =>
        have key : ((splitOnce l).map fun r => (c :: r.1, r.2)) = some (a0 :: a, b) ↔ c = a0 ∧ splitOnce l = some (a, b) := by
          cases splitOnce l with
          | none => simp
          | some r => obtain ⟨r1, r2⟩ := r; simp [and_assoc]
        rw [key, ih]
        constructor
        · rintro ⟨rfl, h1, h2⟩
          refine ⟨by rw [h1]; simp, ?_⟩
          intro x y h
          cases x with
          | nil => exact absurd (prefix_word.mpr ⟨y, by simpa using h⟩) hp
          | cons x0 x =>
            have := h2 x y (by simpa using (List.cons.inj h).2)
            simpa using this
        · rintro ⟨h1, h2⟩
          have h1' := List.cons.inj (by simpa using h1 : c :: l = a0 :: (a ++ (word ++ b)))
          refine ⟨h1'.1, by simpa using h1'.2, ?_⟩
          intro x y h
          have := h2 (c :: x) y (by rw [h]; simp)
          simpa using this

/-- **C99 (style, important)** A declaration is important exactly if the value ends, before white space, with the word `!important`
where the word stands first; the value is what stands before it. -/
theorem important_iff (a : List Char) : important isWhite value = (a, true) ↔
    trimEnd isWhite value = a ++ word ∧ ∀ x y, trimEnd isWhite value = x ++ word ++ y → a.length ≤ x.length := by
  have := split_iff (trimEnd isWhite value) a []
  rw [List.append_nil] at this
  rw [← this]
  unfold important
  split
  · next a' h => rw [h]; simp
  · next h =>
    simp only [Prod.mk.injEq, Bool.false_eq_true, and_false, false_iff]
    intro h'
    exact h a h'

/-- **C99 (style, not important)** Otherwise the value is read as it was given, with its white space. -/
theorem important_else (h : (important isWhite value).2 = false) : (important isWhite value).1 = value := by
  unfold important at h ⊢
  split at h
  · cases h
  · rfl

end

/-! ### Examples -/

/-- Text behind the word: the value is read as it is. -/
example : (important (· == ' ') "red !important x ".toList).1 = "red !important x ".toList := important_else (by decide +kernel)

private def doc : Doc Nat Nat := fun i =>
  if i = 1 then some (.element ⟨[(0, .text "a".toList), (7, .style [] [5]), (2, .text "b".toList)]⟩)
  else if i = 2 then some (.element ⟨[]⟩) else if i = 3 then some .other else none

private def known : Nat → List Char → Option Nat := fun i name => if name = "width".toList ∧ i = 1 then some 0 else none

/-- An attribute is replaced in its place. -/
example : ∃ doc', attr known "width".toList "10".toList (some [3, 1, 2, 1, 9]) doc = .ok doc' ∧
    doc' 1 = some (.element ⟨[(0, .text "10".toList), (7, .style [] [5]), (2, .text "b".toList)]⟩) ∧ doc' 2 = doc 2 := ⟨_, rfl, rfl, rfl⟩

/-- A name with two colons. -/
example : attr known "a:b:c".toList "10".toList (some [3, 1]) doc = .panic :=
  attr_panics_violated (by decide) ⟨1, by simp, _, rfl⟩

/-- A declaration is appended, twice for an element that is selected twice. -/
example : ∃ doc', style 7 (· == ' ') (fun i => i == 1) (fun _ v => if v = "red ".toList then some 6 else none) "fill".toList
      "red !important ".toList (some [1, 2, 1]) doc = .ok doc' ∧
    doc' 1 = some (.element ⟨[(0, .text "a".toList), (7, .style [6, 6] [5]), (2, .text "b".toList)]⟩) ∧ doc' 2 = doc 2 := ⟨_, rfl, rfl, rfl⟩

example : important (· == ' ') "red !important ".toList = ("red ".toList, true) := by decide +kernel

example : important (· == ' ') "red !important x".toList = ("red !important x".toList, false) := by decide +kernel

end Verif.Edit
