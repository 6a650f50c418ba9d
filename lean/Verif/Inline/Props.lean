import Verif.Inline.Lemmas

/-!
# C58: inlining style rules
-/

namespace Verif.Inline

open Verif.Names

variable {V Q R : Type}

/-! ## Sorting -/

def sayT (p : Str) (get : Block V → List (Str × V)) (t : Taken V) : Option (Nat × V) := say p get (t.spec, t.block)

def Sorted (l : List (Taken V)) : Prop := l.Pairwise fun a b => a.spec ≤ b.spec

theorem mem_insert (x : Taken V) : ∀ (l : List (Taken V)) (y : Taken V), y ∈ insert x l ↔ y = x ∨ y ∈ l
  | [], y => by simp [insert]
  | z :: l, y => by
    simp only [insert]
    split
    · simp only [List.mem_cons, mem_insert x l y]
      constructor
      · rintro (h | h | h) <;> simp [h]
      · rintro (h | h | h) <;> simp [h]
    · simp

theorem sorted_insert (x : Taken V) : ∀ l : List (Taken V), Sorted l → Sorted (insert x l)
  | [], _ => by simp [insert, Sorted]
  | y :: l, h => by
    simp only [Sorted, List.pairwise_cons] at h
    simp only [insert]
    split
    · next hy =>
      simp only [Sorted, List.pairwise_cons]
      refine ⟨fun z hz => ?_, sorted_insert x l h.2⟩
      rcases (mem_insert x l z).mp hz with rfl | hz
      · exact hy
      · exact h.1 z hz
    · next hy =>
      simp only [Sorted, List.pairwise_cons]
      refine ⟨fun z hz => ?_, h⟩
      rcases List.mem_cons.mp hz with rfl | hz
      · omega
      · have := h.1 z hz
        omega

theorem stronger_swap (a : Option (Nat × V)) (x y : Nat × V) (h : x.1 < y.1) :
    stronger (stronger a x) y = stronger (stronger a y) x := by
  cases a with
  | none =>
    simp only [stronger]
    rw [if_pos (by omega), if_neg (by omega)]
  | some z =>
    by_cases h1 : z.1 ≤ x.1
    · have h2 : z.1 ≤ y.1 := by omega
      simp only [stronger, h1, h2, if_true]
      rw [if_pos (by omega), if_neg (by omega)]
    · by_cases h2 : z.1 ≤ y.1
      · simp only [stronger, h1, h2, if_true, if_false]
        rw [if_neg (by omega)]
      · simp only [stronger, h1, h2, if_false]

theorem fold_swap (x : Nat × V) : ∀ (m : List (Nat × V)) (a : Option (Nat × V)), (∀ y ∈ m, x.1 < y.1) →
    m.foldl stronger (stronger a x) = stronger (m.foldl stronger a) x
  | [], _, _ => rfl
  | y :: m, a, h => by
    rw [List.foldl_cons, List.foldl_cons, stronger_swap a x y (h y (by simp)), fold_swap x m _ fun z hz => h z (by simp [hz])]

theorem fold_insert (p : Str) (get : Block V → List (Str × V)) (x : Taken V) : ∀ (l : List (Taken V)) (a : Option (Nat × V)), Sorted l →
    ((insert x l).filterMap (sayT p get)).foldl stronger a = ((l ++ [x]).filterMap (sayT p get)).foldl stronger a
  | [], a, _ => rfl
  | y :: l, a, h => by
    simp only [Sorted, List.pairwise_cons] at h
    simp only [insert]
    split
    · rw [List.cons_append, List.filterMap_cons, List.filterMap_cons]
      cases sayT p get y with
      | none => exact fold_insert p get x l a h.2
      | some v => exact fold_insert p get x l _ h.2
    · next hy =>
      have h1 : (x :: y :: l).filterMap (sayT p get) = (sayT p get x).toList ++ (y :: l).filterMap (sayT p get) := by
        rw [List.filterMap_cons]
        cases sayT p get x <;> rfl
      have h2 : [x].filterMap (sayT p get) = (sayT p get x).toList := by
        rw [List.filterMap_cons]
        cases sayT p get x <;> rfl
      rw [h1, List.filterMap_append, h2, List.foldl_append, List.foldl_append]
      cases hx : sayT p get x with
      | none => rfl
      | some v =>
        have hv : v.1 = x.spec := by
          simp only [sayT, say, Option.map_eq_some_iff] at hx
          obtain ⟨w, _, rfl⟩ := hx
          rfl
        have hl : ∀ z ∈ (y :: l).filterMap (sayT p get), v.1 < z.1 := by
          intro z hz
          obtain ⟨t, ht, hz⟩ := List.mem_filterMap.mp hz
          simp only [sayT, say, Option.map_eq_some_iff] at hz
          obtain ⟨w, _, rfl⟩ := hz
          rcases List.mem_cons.mp ht with rfl | ht
          · simp only; omega
          · have := h.1 t ht
            simp only; omega
        exact fold_swap v _ a hl

theorem sort_fold (p : Str) (get : Block V → List (Str × V)) (l : List (Taken V)) :
    ∀ acc : List (Taken V), Sorted acc → Sorted (l.foldl (fun acc x => insert x acc) acc) ∧
      (∀ y, y ∈ l.foldl (fun acc x => insert x acc) acc ↔ y ∈ acc ∨ y ∈ l) ∧
      ((l.foldl (fun acc x => insert x acc) acc).filterMap (sayT p get)).foldl stronger none =
        ((acc ++ l).filterMap (sayT p get)).foldl stronger none := by
  induction l with
  | nil => intro acc h; simp [h]
  | cons x l ih =>
    intro acc h
    obtain ⟨h1, h2, h3⟩ := ih (insert x acc) (sorted_insert x acc h)
    refine ⟨h1, fun y => ?_, ?_⟩
    · rw [List.foldl_cons, h2, mem_insert, List.mem_cons]
      constructor
      · rintro ((h | h) | h) <;> simp [h]
      · rintro (h | h | h) <;> simp [h]
    · have : acc ++ x :: l = (acc ++ [x]) ++ l := by simp
      rw [this, List.filterMap_append (l := acc ++ [x]), List.foldl_append, ← fold_insert p get x acc none h, List.foldl_cons, h3,
        List.filterMap_append, List.foldl_append]

theorem sort_spec (p : Str) (get : Block V → List (Str × V)) (l : List (Taken V)) : Sorted (sort l) ∧ (∀ y, y ∈ sort l ↔ y ∈ l) ∧
    ((sort l).filterMap (sayT p get)).foldl stronger none = (l.filterMap (sayT p get)).foldl stronger none := by
  have := sort_fold p get l [] List.Pairwise.nil
  simpa [sort] using this

theorem sorted_last (p : Str) (get : Block V → List (Str × V)) : ∀ (l : List (Taken V)) (a : Option (Nat × V)), Sorted l →
    (∀ x, a = some x → ∀ t ∈ l, x.1 ≤ t.spec) →
    ((l.filterMap (sayT p get)).foldl stronger a).map (·.2) = (last p (l.flatMap fun t => get t.block)).or (a.map (·.2))
  | [], a, _, _ => by simp [last]
  | y :: l, a, h, ha => by
    simp only [Sorted, List.pairwise_cons] at h
    rw [List.filterMap_cons, List.flatMap_cons, last_append]
    cases hy : last p (get y.block) with
    | none =>
      have : sayT p get y = none := by simp [sayT, say, hy]
      simp only [this, Option.or_none]
      exact sorted_last p get l a h.2 fun x hx t ht => ha x hx t (by simp [ht])
    | some v =>
      have : sayT p get y = some (y.spec, v) := by simp [sayT, say, hy]
      simp only [this, List.foldl_cons]
      have hs : stronger a (y.spec, v) = some (y.spec, v) := by
        cases a with
        | none => rfl
        | some x => simp [stronger, ha x rfl y (by simp)]
      rw [hs, sorted_last p get l _ h.2 (by
        intro x hx t ht
        simp only [Option.some.injEq] at hx
        rw [← hx]
        exact h.1 t ht)]
      cases last p (l.flatMap fun t => get t.block) <;> simp

/-- The declarations of the sorted rules, one after the other, say what the strongest rule says. -/
theorem sort_best (p : Str) (get : Block V → List (Str × V)) (l : List (Taken V)) :
    last p ((sort l).flatMap fun t => get t.block) = best p get (l.map fun t => (t.spec, t.block)) := by
  obtain ⟨h1, _, h3⟩ := sort_spec p get l
  have := sorted_last p get (sort l) none h1 (by simp)
  simp only [Option.map_none, Option.or_none] at this
  rw [← this, h3, best_say, List.filterMap_map]
  rfl

/-! ## The end of the document -/

theorem dropTokens (dyn : List Token) (refs : List Str) : ∀ (ts : List Token) (e : Elem V Q R),
    let e' := ts.foldl (dropToken dyn refs) e
    e'.key = e.key ∧ e'.name = e.name ∧ e'.style = e.style ∧ e'.attrs = e.attrs ∧ e'.typ = e.typ ∧ e'.media = e.media ∧
      e'.sheet = e.sheet ∧ e'.gone = e.gone ∧ e'.foreign = e.foreign ∧ e'.refs = e.refs ∧
      (∀ c, c ∈ e'.classes ↔ c ∈ e.classes ∧ ¬ (.cls c ∈ ts ∧ .cls c ∉ dyn)) ∧
      (e'.id = e.id ∨ e'.id = none ∧ ∃ i, .id i ∈ ts ∧ .id i ∉ dyn ∧ i ∉ refs)
  | [], e => by simp
  | t :: ts, e => by
    have ih := dropTokens dyn refs ts (dropToken dyn refs e t)
    simp only [List.foldl_cons] at ih ⊢
    obtain ⟨h1, h2, h3, h4, h5, h6, h7, h8, h9, h10, h11, h12⟩ := ih
    by_cases hd : t ∈ dyn
    · have he : dropToken dyn refs e t = e := by simp [dropToken, hd]
      rw [he] at h1 h2 h3 h4 h5 h6 h7 h8 h9 h10 h11 h12 ⊢
      refine ⟨h1, h2, h3, h4, h5, h6, h7, h8, h9, h10, fun c => ?_, ?_⟩
      · rw [h11]
        refine and_congr_right fun _ => not_congr (and_congr_left fun hn => ?_)
        simp only [List.mem_cons]
        exact ⟨.inr, fun h => h.resolve_left fun h => hn (h ▸ hd)⟩
      · exact h12.imp id fun ⟨a, i, b, c⟩ => ⟨a, i, by simp [b], c⟩
    · cases t with
      | cls x =>
        have he : dropToken dyn refs e (.cls x) = { e with classes := e.classes.filter (· ≠ x) } := by simp [dropToken, hd]
        rw [he] at h1 h2 h3 h4 h5 h6 h7 h8 h9 h10 h11 h12 ⊢
        refine ⟨h1, h2, h3, h4, h5, h6, h7, h8, h9, h10, fun c => ?_, ?_⟩
        · rw [h11]
          simp only [List.mem_filter, decide_eq_true_eq, List.mem_cons, Token.cls.injEq]
          constructor
          · rintro ⟨⟨a, b⟩, c⟩
            exact ⟨a, fun ⟨x, y⟩ => x.elim b fun h => c ⟨h, y⟩⟩
          · rintro ⟨a, b⟩
            exact ⟨⟨a, fun h => b ⟨.inl h, h ▸ hd⟩⟩, fun ⟨x, y⟩ => b ⟨.inr x, y⟩⟩
        · exact h12.imp id fun ⟨a, i, b, c⟩ => ⟨a, i, by simp [b], c⟩
      | id x =>
        by_cases hr : x ∈ refs
        · have he : dropToken dyn refs e (.id x) = e := by simp [dropToken, hr]
          rw [he] at h1 h2 h3 h4 h5 h6 h7 h8 h9 h10 h11 h12 ⊢
          refine ⟨h1, h2, h3, h4, h5, h6, h7, h8, h9, h10, fun c => ?_, ?_⟩
          · rw [h11]
            simp
          · exact h12.imp id fun ⟨a, i, b, c⟩ => ⟨a, i, by simp [b], c⟩
        · have he : dropToken dyn refs e (.id x) = { e with id := none } := by simp [dropToken, hd, hr]
          rw [he] at h1 h2 h3 h4 h5 h6 h7 h8 h9 h10 h11 h12 ⊢
          refine ⟨h1, h2, h3, h4, h5, h6, h7, h8, h9, h10, fun c => ?_, ?_⟩
          · rw [h11]
            simp
          · exact .inr ⟨by simpa using h12.elim id (·.1), x, by simp, hd, hr⟩
      | attr n v =>
        have he : dropToken dyn refs e (.attr n v) = e := by simp [dropToken]
        rw [he] at h1 h2 h3 h4 h5 h6 h7 h8 h9 h10 h11 h12 ⊢
        exact ⟨h1, h2, h3, h4, h5, h6, h7, h8, h9, h10, fun c => by rw [h11]; simp, h12.imp id fun ⟨a, i, b, c⟩ => ⟨a, i, by simp [b], c⟩⟩
      | name n =>
        have he : dropToken dyn refs e (.name n) = e := by simp [dropToken]
        rw [he] at h1 h2 h3 h4 h5 h6 h7 h8 h9 h10 h11 h12 ⊢
        exact ⟨h1, h2, h3, h4, h5, h6, h7, h8, h9, h10, fun c => by rw [h11]; simp, h12.imp id fun ⟨a, i, b, c⟩ => ⟨a, i, by simp [b], c⟩⟩
      | other n v =>
        have he : dropToken dyn refs e (.other n v) = e := by simp [dropToken]
        rw [he] at h1 h2 h3 h4 h5 h6 h7 h8 h9 h10 h11 h12 ⊢
        exact ⟨h1, h2, h3, h4, h5, h6, h7, h8, h9, h10, fun c => by rw [h11]; simp, h12.imp id fun ⟨a, i, b, c⟩ => ⟨a, i, by simp [b], c⟩⟩

/-- What the end of the document does to an element. -/
theorem finish_spec (st : State V) (refs : List Str) (e : Elem V Q R) :
    let g := st.taken.filter fun t => t.key = e.key
    let b := newStyle (sort g) e.style
    let e' := finish st refs e
    e'.key = e.key ∧ e'.name = e.name ∧ e'.typ = e.typ ∧ e'.media = e.media ∧ e'.sheet = e.sheet ∧ e'.gone = e.gone ∧
      e'.foreign = e.foreign ∧ e'.refs = e.refs ∧
      (g = [] → e' = e) ∧
      (g ≠ [] → e'.style = (if b.normal.isEmpty && b.important.isEmpty then .absent else .block b) ∧ e'.attrs = dropAttrs st.dyn b e.attrs) ∧
      (∀ c, c ∈ e'.classes ↔ c ∈ e.classes ∧ ¬ ((∃ t ∈ g, .cls c ∈ t.tokens) ∧ .cls c ∉ st.dyn)) ∧
      (e'.id = e.id ∨ e'.id = none ∧ ∃ i, ∃ t ∈ g, .id i ∈ t.tokens ∧ .id i ∉ st.dyn ∧ i ∉ refs) := by
  intro g b e'
  have hg : g = st.taken.filter fun t => t.key = e.key := rfl
  by_cases h : g = []
  · have : e' = e := by
      show finish st refs e = e
      unfold finish
      rw [← hg, h]
      rfl
    rw [this]
    simp [h]
  · obtain ⟨h1, h2, h3, h4, h5, h6, h7, h8, h9, h10, h11, h12⟩ := dropTokens st.dyn refs ((sort g).flatMap (·.tokens))
      { e with style := if b.normal.isEmpty && b.important.isEmpty then .absent else .block b, attrs := dropAttrs st.dyn b e.attrs }
    have he : e' = ((sort g).flatMap (·.tokens)).foldl (dropToken st.dyn refs)
        { e with style := if b.normal.isEmpty && b.important.isEmpty then .absent else .block b, attrs := dropAttrs st.dyn b e.attrs } := by
      show finish st refs e = _
      unfold finish
      rw [← hg]
      simp only [List.isEmpty_iff, h, if_false]
      rfl
    rw [← he] at h1 h2 h3 h4 h5 h6 h7 h8 h9 h10 h11 h12
    have hm : ∀ x, x ∈ (sort g).flatMap (·.tokens) ↔ ∃ t ∈ g, x ∈ t.tokens := by
      intro x
      simp only [List.mem_flatMap, (sort_spec [] (·.normal) g).2.1]
    refine ⟨h1, h2, h5, h6, h7, h8, h9, h10, fun hx => absurd hx h, fun _ => ⟨h3, h4⟩, fun c => ?_, ?_⟩
    · rw [h11, hm]
    · refine h12.imp id fun ⟨a, i, b, c⟩ => ?_
      obtain ⟨t, ht, hb⟩ := (hm _).mp b
      exact ⟨a, i, t, ht, hb, c⟩

/-! ## All style elements -/

theorem exitAll_eq (test : Nat → Value V → Bool) (eng : Engine) (o : Opts) (doc : List (Elem V Q R)) : ∀ es : List (Elem V Q R),
    (exitAll test eng o doc es).1 = es.map (fun e => (exitStyle test eng o doc e).1) ∧
      (exitAll test eng o doc es).2.dyn = es.flatMap (fun e => (exitStyle test eng o doc e).2.dyn) ∧
      (exitAll test eng o doc es).2.taken = es.flatMap (fun e => (exitStyle test eng o doc e).2.taken)
  | [] => by simp [exitAll]
  | e :: es => by
    obtain ⟨h1, h2, h3⟩ := exitAll_eq test eng o doc es
    simp [exitAll, h1, h2, h3]

/-- The rules that are inlined: the vector `inlined` of the code (inline_styles.rs:89). -/
def taken (test : Nat → Value V → Bool) (eng : Engine) (o : Opts) (doc : List (Elem V Q R)) : List (Taken V) :=
  (exitAll test eng o doc doc).2.taken

theorem exitStyle_same (test : Nat → Value V → Bool) (eng : Engine) (o : Opts) (doc : List (Elem V Q R)) (e : Elem V Q R) :
    let e' := (exitStyle test eng o doc e).1
    e'.key = e.key ∧ e'.name = e.name ∧ e'.foreign = e.foreign ∧ e'.id = e.id ∧ e'.classes = e.classes ∧ e'.style = e.style ∧
      e'.attrs = e.attrs ∧ e'.refs = e.refs ∧ e'.typ = e.typ ∧ e'.media = e.media := by
  unfold exitStyle
  split <;> simp

/-- A style element whose type is spelled as expected. -/
def Usual (e : Elem V Q R) : Prop :=
  (∀ t, e.typ = some t → t = [] ∨ t = lit "text/css") ∧ e.foreign = false ∧ e.media = none

theorem exitStyle_mix {sem : Sem V R} {doc : List (Elem V Q R)} {eng : Engine} (hs : Sound sem doc eng) (o : Opts) (e : Elem V Q R)
    (hg : e.gone = false) (hu : e.name = lit "style" → IsCss e.typ → Usual e)
    (hc : ∀ l, e.sheet = some l → ∀ r ∈ l, Closed o r) :
    let a := exitStyle sem.test eng o doc e
    (∀ t ∈ a.2.taken, FromSels sem doc t) ∧
      (∀ env, ∀ x ∈ doc, Mix (mine x.key a.2.taken)
        (if Counts env a.1 then eachAll sem env (holds sem doc) x.key (a.1.sheet.getD []) else [])
        (if Counts env e then eachAll sem env (holds sem doc) x.key (e.sheet.getD []) else [])) ∧
      (∀ env, Counts env a.1 → ∀ s ∈ selsOfAll (a.1.sheet.getD []), ∀ t ∈ s.tokens, t ∈ a.2.dyn ∨ t ∈ (a.1.sheet.getD []).flatMap topTails) := by
  intro a
  have ha : a = exitStyle sem.test eng o doc e := rfl
  unfold exitStyle at ha
  cases hr : rulesOf e with
  | none =>
    rw [hr] at ha
    simp only at ha
    rw [ha]
    refine ⟨by simp, fun env x _ => by simpa [mine] using Mix.allRight _, fun env hcn s hs' => ?_⟩
    have hus := hu hcn.1 hcn.2.1
    have : e.sheet = none := by
      unfold rulesOf at hr
      rwa [if_pos ⟨hcn.1, hus.1, hus.2.1⟩] at hr
    simp [this, selsOfAll] at hs'
  | some rs =>
    rw [hr] at ha
    simp only at ha
    have hsh : (e.name = lit "style" ∧ (∀ t, e.typ = some t → t = [] ∨ t = lit "text/css") ∧ e.foreign = false) ∧ e.sheet = some rs := by
      unfold rulesOf at hr
      split at hr
      · exact ⟨by assumption, hr⟩
      · simp at hr
    have hcss : IsCss e.typ := by
      intro s hs'
      refine (hsh.1.2.1 s hs').imp id fun h => ?_
      rw [h]
      decide +kernel
    have hus := hu hsh.1.1 hcss
    obtain ⟨⟨n, h1, t1, m1⟩, _, u1⟩ := collectAll_mix hs sem.test o rs (hc rs hsh.2) ⟨rs.flatMap (firstPass o), []⟩
      fun r hr t ht => List.mem_flatMap.mpr ⟨r, hr, ht⟩
    simp only [List.nil_append] at h1
    have h1' : a.2.taken = n := by rw [ha, inlineRules]; exact h1
    have hsheet : a.1.sheet = some (tidyAll (collectAll sem.test eng o doc ⟨rs.flatMap (firstPass o), []⟩ rs).1) := by rw [ha]; rfl
    have hdyn : a.2.dyn = (collectAll sem.test eng o doc ⟨rs.flatMap (firstPass o), []⟩ rs).2.dyn := by rw [ha]; rfl
    refine ⟨by rw [h1']; exact t1, fun env x hx => ?_, fun env _ s hs' t ht => ?_⟩
    · have ht := (tidyAll_each sem env (holds sem doc) x.key (collectAll sem.test eng o doc ⟨rs.flatMap (firstPass o), []⟩ rs).1).1
      have hce : Counts env e := ⟨hsh.1.1, hcss, hg, by simp [hus.2.2]⟩
      rw [if_pos hce, h1', hsh.2, hsheet]
      have hm := m1 env x hx
      rw [← ht] at hm
      have : (if Counts env a.1 then eachAll sem env (holds sem doc) x.key
          ((some (tidyAll (collectAll sem.test eng o doc ⟨rs.flatMap (firstPass o), []⟩ rs).1)).getD []) else []) =
          eachAll sem env (holds sem doc) x.key (tidyAll (collectAll sem.test eng o doc ⟨rs.flatMap (firstPass o), []⟩ rs).1) := by
        by_cases hemp : tidyAll (collectAll sem.test eng o doc ⟨rs.flatMap (firstPass o), []⟩ rs).1 = []
        · simp [hemp, eachAll]
        · rw [if_pos]
          · rfl
          · rw [ha]
            refine ⟨hsh.1.1, hcss, ?_, ?_⟩
            · simp [hg, inlineRules, hemp]
            · simp [hus.2.2]
      rw [this]
      exact hm
    · have htd := tidyAll_each sem env (holds sem doc) 0 (collectAll sem.test eng o doc ⟨rs.flatMap (firstPass o), []⟩ rs).1
      rw [hsheet] at hs' ⊢
      simp only [Option.getD_some] at hs' ⊢
      rw [htd.2.1] at hs'
      rw [htd.2.2, hdyn]
      exact u1 s hs' t ht

/-- What the style elements declare, with one entry for each selector. -/
def declEach (sem : Sem V R) (env : Q → Bool) (f : Nat → Token → Bool) (doc : List (Elem V Q R)) (k : Nat) : List (Nat × Block V) :=
  doc.flatMap fun e => if Counts env e then eachAll sem env f k (e.sheet.getD []) else []

theorem best_each (sem : Sem V R) (env : Q → Bool) (f : Nat → Token → Bool) (k : Nat) (p : Str) (get : Block V → List (Str × V))
    (doc : List (Elem V Q R)) : best p get (declared sem env f doc k) =
      (((declEach sem env f doc k).filterMap (say p get)).foldl stronger none).map (·.2) := by
  rw [best_say]
  congr 1
  generalize (none : Option (Nat × V)) = acc
  induction doc generalizing acc with
  | nil => rfl
  | cons e doc ih =>
    simp only [declared, declEach, List.flatMap_cons, List.filterMap_append, List.foldl_append] at ih ⊢
    rw [ih]
    congr 1
    by_cases hc : Counts env e
    · have hc' := hc
      unfold Counts at hc'
      rw [if_pos hc, if_pos hc', fold_eachAll]
    · have hc' := hc
      unfold Counts at hc'
      rw [if_neg hc, if_neg hc']

mutual
theorem each_local (sem : Sem V R) (env : Q → Bool) (f g : Nat → Token → Bool) (k : Nat) : ∀ r : Rule V Q R,
    (∀ s ∈ selsOf r, ∀ t ∈ s.tokens, ∀ k, f k t = g k t) → each sem env f k r = each sem env g k r
  | .style sels b, h => by
    simp only [each]
    congr 1
    apply List.filter_congr
    intro s hs
    have hs := h s hs
    unfold matchesSel
    split
    · rw [Bool.eq_iff_iff, List.all_eq_true, List.all_eq_true]
      constructor <;> intro hx t ht <;> have := hs t (by simp [Sel.tokens, ht]) k
      · rw [← this]; exact hx t ht
      · rw [this]; exact hx t ht
    · rw [sem.complex_local f g s hs]
  | .nest sels r, h => by
    simp only [each]
    rw [sem.nested_local f g sels r h]
  | .group _ c rs, h => by
    simp only [each]
    rw [eachAll_local sem env f g k rs h]
  | .other _, _ => by simp [each]
theorem eachAll_local (sem : Sem V R) (env : Q → Bool) (f g : Nat → Token → Bool) (k : Nat) : ∀ rs : List (Rule V Q R),
    (∀ s ∈ selsOfAll rs, ∀ t ∈ s.tokens, ∀ k, f k t = g k t) → eachAll sem env f k rs = eachAll sem env g k rs
  | [], _ => by simp [eachAll]
  | r :: rs, h => by
    simp only [eachAll]
    rw [each_local sem env f g k r fun s hs => h s (by simp [selsOfAll, hs]),
      eachAll_local sem env f g k rs fun s hs => h s (by simp [selsOfAll, hs])]
end

mutual
theorem each_block (sem : Sem V R) (env : Q → Bool) (f : Nat → Token → Bool) (k : Nat) : ∀ r : Rule V Q R, ∀ x ∈ each sem env f k r,
    ∃ y ∈ entries sem env f k r, y.2 = x.2
  | .style sels b, x, hx => by
    simp only [each, List.mem_map] at hx
    obtain ⟨s, hs, rfl⟩ := hx
    simp only [entries]
    cases hm : ((sels.filter fun s => matchesSel sem f s k).map (·.spec)).max? with
    | none =>
      rw [List.max?_eq_none_iff, List.map_eq_nil_iff] at hm
      rw [hm] at hs
      simp at hs
    | some n => exact ⟨(n, b), by simp, rfl⟩
  | .nest sels r, x, hx => ⟨x, by simpa [each, entries] using hx, rfl⟩
  | .group _ c rs, x, hx => by
    simp only [each] at hx
    simp only [entries]
    split at hx
    · next hc =>
      rw [if_pos hc]
      exact eachAll_block sem env f k rs x hx
    · simp at hx
  | .other _, x, hx => by simp [each] at hx
theorem eachAll_block (sem : Sem V R) (env : Q → Bool) (f : Nat → Token → Bool) (k : Nat) : ∀ rs : List (Rule V Q R),
    ∀ x ∈ eachAll sem env f k rs, ∃ y ∈ entriesAll sem env f k rs, y.2 = x.2
  | [], x, hx => by simp [eachAll] at hx
  | r :: rs, x, hx => by
    simp only [eachAll, List.mem_append] at hx
    simp only [entriesAll, List.mem_append]
    rcases hx with hx | hx
    · obtain ⟨y, hy, h⟩ := each_block sem env f k r x hx
      exact ⟨y, .inl hy, h⟩
    · obtain ⟨y, hy, h⟩ := eachAll_block sem env f k rs x hx
      exact ⟨y, .inr hy, h⟩
end

theorem declEach_block (sem : Sem V R) (env : Q → Bool) (f : Nat → Token → Bool) (doc : List (Elem V Q R)) (k : Nat) (x : Nat × Block V)
    (hx : x ∈ declEach sem env f doc k) : ∃ y ∈ declared sem env f doc k, y.2 = x.2 := by
  simp only [declEach, List.mem_flatMap] at hx
  obtain ⟨e, he, hx⟩ := hx
  split at hx
  · next hc =>
    obtain ⟨y, hy, h⟩ := eachAll_block sem env f k _ x hx
    refine ⟨y, List.mem_flatMap.mpr ⟨e, he, ?_⟩, h⟩
    unfold Counts at hc
    rw [if_pos hc]
    exact hy
  · simp at hx

/-! ## Tokens afterwards -/

theorem find_filter {α : Type} (q keep : α → Bool) (h : ∀ a, q a = true → keep a = true) : ∀ l : List α, (l.filter keep).find? q = l.find? q
  | [] => rfl
  | a :: l => by
    by_cases hq : q a = true
    · simp [h a hq, hq]
    · by_cases hk : keep a = true
      · simp [hk, hq, find_filter q keep h l]
      · simp [hk, hq, find_filter q keep h l]

theorem newStyle_declares {g : List (Taken V)} {s : Style V} {p : Str} (h : (newStyle (sort g) s).Declares p) :
    (∃ x ∈ g, x.block.Declares p) ∨ ∃ b, s = .block b ∧ b.Declares p := by
  have hm := (sort_spec [] (·.normal) g).2.1
  obtain ⟨v, h⟩ := h
  simp only [newStyle, List.mem_append, List.mem_flatMap] at h
  rcases h with (⟨x, hx, hv⟩ | hv) | (⟨x, hx, hv⟩ | hv)
  · exact .inl ⟨x, (hm x).mp hx, v, .inl hv⟩
  · cases s with
    | block b => exact .inr ⟨b, rfl, v, .inl hv⟩
    | _ => simp at hv
  · exact .inl ⟨x, (hm x).mp hx, v, .inr hv⟩
  · cases s with
    | block b => exact .inr ⟨b, rfl, v, .inr hv⟩
    | _ => simp at hv

theorem declares_iff {b : Block V} {p : Str} : ((b.normal ++ b.important).any fun d => decide (d.1 = p)) = true ↔ b.Declares p := by
  simp only [List.any_append, Bool.or_eq_true, List.any_eq_true, decide_eq_true_eq]
  constructor
  · rintro (⟨⟨q, v⟩, h, rfl⟩ | ⟨⟨q, v⟩, h, rfl⟩)
    · exact ⟨v, .inl h⟩
    · exact ⟨v, .inr h⟩
  · rintro ⟨v, h | h⟩
    · exact .inl ⟨_, h, rfl⟩
    · exact .inr ⟨_, h, rfl⟩

theorem dropAttrs_find (dyn : List Token) (b : Block V) (attrs : List (Str × V)) (n : Str)
    (h : ¬ b.Declares n ∨ ∃ t, .attr n t ∈ dyn) : (dropAttrs dyn b attrs).find? (fun a => a.1 = n) = attrs.find? (fun a => a.1 = n) := by
  apply find_filter
  intro a ha
  simp only [decide_eq_true_eq] at ha
  rw [ha]
  rcases h with h | ⟨t, h⟩
  · rw [← declares_iff, Bool.not_eq_true] at h
    simp only [h, Bool.not_false, Bool.true_or]
  · rw [Bool.or_eq_true]
    right
    rw [List.any_eq_true]
    exact ⟨_, h, by simp⟩

/-- A token holds for the same elements afterwards. -/
def Safe (doc : List (Elem V Q R)) (st : State V) : Token → Prop
  | .cls c => .cls c ∈ st.dyn ∨ ∀ x ∈ st.taken, .cls c ∉ x.tokens
  | .id i => .id i ∈ st.dyn ∨ ∀ x ∈ st.taken, .id i ∉ x.tokens
  | .attr n t => (n ≠ lit "class" ∧ n ≠ lit "id" ∧ n ≠ lit "style") ∧ (.attr n t ∈ st.dyn ∨ ∀ x ∈ st.taken, ¬ x.block.Declares n ∧
      ∀ e ∈ doc, e.key = x.key → ∀ b, e.style = .block b → ¬ b.Declares n)
  | _ => True

theorem key_inj {doc : List (Elem V Q R)} (h : (doc.map (·.key)).Nodup) {a b : Elem V Q R} (ha : a ∈ doc) (hb : b ∈ doc) (hk : a.key = b.key) :
    a = b := by
  induction doc with
  | nil => simp at ha
  | cons x doc ih =>
    simp only [List.map_cons, List.nodup_cons, List.mem_map, not_exists, not_and] at h
    rcases List.mem_cons.mp ha with rfl | ha
    · rcases List.mem_cons.mp hb with rfl | hb
      · rfl
      · exact absurd hk.symm (h.1 b hb)
    · rcases List.mem_cons.mp hb with hb | hb
      · exact absurd (hk.trans (by rw [hb])) (h.1 a ha)
      · exact ih h.2 ha hb

theorem holdsE_kept (sem : Sem V R) (doc : List (Elem V Q R)) (hk : (doc.map (·.key)).Nodup) (st : State V) (refs : List Str)
    (hf : ∀ t ∈ st.taken, FromSels sem doc t) (e e1 : Elem V Q R) (he : e ∈ doc) (h1 : e1.key = e.key ∧ e1.name = e.name ∧ e1.id = e.id ∧
      e1.classes = e.classes ∧ e1.style = e.style ∧ e1.attrs = e.attrs) (t : Token) (ht : Safe doc st t) :
    holdsE sem (finish st refs e1) t = holdsE sem e t := by
  obtain ⟨a1, a2, _, _, _, _, _, _, a9, a10, a11, a12⟩ := finish_spec st refs e1
  obtain ⟨b1, b2, b3, b4, b5, b6⟩ := h1
  rw [b1] at a9
  rw [b1, b5] at a10
  rw [b1, b4] at a11
  rw [b1, b3] at a12
  have hsub : ∀ x ∈ st.taken.filter (fun t => t.key = e.key), x ∈ st.taken ∧ x.key = e.key := by
    intro x hx
    simpa using List.mem_filter.mp hx
  cases t with
  | cls c =>
    simp only [holdsE]
    rw [Bool.eq_iff_iff, List.contains_iff_mem, List.contains_iff_mem, a11]
    refine ⟨fun h => h.1, fun h => ⟨h, ?_⟩⟩
    rintro ⟨⟨x, hx, hc⟩, hd⟩
    rcases ht with ht | ht
    · exact hd ht
    · exact ht x (hsub x hx).1 hc
  | id i =>
    simp only [holdsE]
    rcases a12 with h | ⟨h, j, x, hx, hj, hd, _⟩
    · rw [h]
    · have hkx := hsub x hx
      have := hf x hkx.1 e he hkx.2.symm _ hj
      simp only [holds, List.any_eq_true, Bool.and_eq_true, beq_iff_eq, holdsE] at this
      obtain ⟨e2, he2, hk2, hi2⟩ := this
      have : e2 = e := key_inj hk he2 he (hk2.trans hkx.2)
      rw [this] at hi2
      rw [h, hi2]
      have hne : j ≠ i := by
        rintro rfl
        rcases ht with ht | ht
        · exact hd ht
        · exact ht x hkx.1 hj
      simp [hne]
  | attr n v =>
    have hl : lookup (finish st refs e1) n = lookup e n := by
      obtain ⟨⟨n1, n2, n3⟩, ht⟩ := ht
      unfold lookup
      rw [if_neg n1, if_neg n2, if_neg n3, if_neg n1, if_neg n2, if_neg n3]
      by_cases hg : st.taken.filter (fun t => t.key = e.key) = []
      · rw [a9 hg, b6]
      · rw [(a10 hg).2, b6, dropAttrs_find]
        rcases ht with ht | ht
        · exact .inr ⟨v, ht⟩
        · refine .inl fun hd => ?_
          rcases newStyle_declares hd with ⟨x, hx, hd⟩ | ⟨b, hb, hd⟩
          · exact (ht x (hsub x hx).1).1 hd
          · obtain ⟨x, l, hx⟩ := List.exists_cons_of_ne_nil hg
            have hx' : x ∈ st.taken.filter (fun t => t.key = e.key) := by rw [hx]; simp
            exact (ht x (hsub x hx').1).2 e he (hsub x hx').2.symm b hb hd
    cases v <;> simp only [holdsE, hl]
  | name n => simp only [holdsE, a2, b2]
  | other s v => simp only [holdsE, a1, b1]

theorem mix_flatMap {α β : Type} (f g h : α → List β) : ∀ l : List α, (∀ x ∈ l, Mix (f x) (g x) (h x)) →
    Mix (l.flatMap f) (l.flatMap g) (l.flatMap h)
  | [], _ => .nil
  | x :: l, hx => by
    simp only [List.flatMap_cons]
    exact (hx x (by simp)).append (mix_flatMap f g h l fun y hy => hx y (by simp [hy]))

theorem mine_flatMap (k : Nat) (f : Elem V Q R → List (Taken V)) : ∀ l : List (Elem V Q R), mine k (l.flatMap f) = l.flatMap fun e => mine k (f e)
  | [] => rfl
  | e :: l => by simp only [List.flatMap_cons, mine_append, mine_flatMap k f l]

theorem inline_new (sem : Sem V R) (b : Block V) : inline sem (if b.normal.isEmpty && b.important.isEmpty then .absent else .block b) = b := by
  obtain ⟨n, i⟩ := b
  cases n <;> cases i <;> simp [inline]

theorem say_none {p : Str} {get : Block V → List (Str × V)} (hget : get = (·.normal) ∨ get = (·.important)) {l : List (Nat × Block V)}
    (h : ∀ x ∈ l, ¬ x.2.Declares p) : l.filterMap (say p get) = [] := by
  rw [List.filterMap_eq_nil_iff]
  intro x hx
  simp only [say, Option.map_eq_none_iff]
  rw [last_none]
  intro v hv
  refine h x hx ⟨v, ?_⟩
  rcases hget with rfl | rfl
  · exact .inl hv
  · exact .inr hv

/-- **C58 (values, partial)**: the value of every property on every element is the same afterwards, whatever conditions hold, if
* the selector engine is right (`he`),
* style elements have no `media` attribute, spell their type in lower case and are not within a `foreignObject` (`hs`),
* no at-rule is among the media queries that the options name (`hm`),
* the `style` attributes of the elements concerned can be read (`hr`),
* no rule that stays declares a property for an element that a rule inlined into that element declares (`hc`),
* no class or id of an inlined selector is asked for by a selector that stays, outside of at-rules and not in front of a combinator
  (`ht`), nor an attribute whose property is declared (`hd`), and selectors do not ask for `class`, `id` or `style` as attributes (`ha`).

Pseudo-classes are taken to depend on the structure of the document only. Without these conditions values change (`Limits.lean`). -/
theorem values_kept_partial (sem : Sem V R) (eng : Engine) (o : Opts) (doc : List (Elem V Q R))
    (hk : (doc.map (·.key)).Nodup) (hg : ∀ e ∈ doc, e.gone = false)
    (he : ∀ s ks, eng s = some ks → ks.Nodup ∧ ∀ e ∈ doc, (e.key ∈ ks ↔ matchesSel sem (holds sem doc) s e.key = true))
    (hs : ∀ e ∈ doc, e.name = lit "style" → IsCss e.typ →
      (∀ t, e.typ = some t → t = [] ∨ t = lit "text/css") ∧ e.foreign = false ∧ e.media = none)
    (hm : ∀ e ∈ doc, ∀ l, e.sheet = some l → ∀ text c rs, .group text c rs ∈ l → text ∉ o.mqs ∧ ∀ s ∈ selsOfAll rs, s.tail ≠ [])
    (hr : ∀ x ∈ taken sem.test eng o doc, ∀ e ∈ doc, e.key = x.key → ∀ n, e.style ≠ .raw n)
    (hc : ∀ x ∈ taken sem.test eng o doc, ∀ env, ∀ y ∈ declared sem env (holds sem doc) (job sem.test eng o doc) x.key, ∀ p,
      x.block.Declares p → ¬ y.2.Declares p)
    (ht : ∀ e ∈ job sem.test eng o doc, e.name = lit "style" → IsCss e.typ → ∀ r ∈ e.sheet.getD [], ∀ t ∈ topTails r,
      (∃ s, t = .cls s ∨ t = .id s) → ∀ x ∈ taken sem.test eng o doc, t ∉ x.tokens)
    (hd : ∀ e ∈ job sem.test eng o doc, e.name = lit "style" → IsCss e.typ → ∀ r ∈ e.sheet.getD [], ∀ n v, .attr n v ∈ topTails r →
      ∀ x ∈ taken sem.test eng o doc, ¬ x.block.Declares n ∧ ∀ e ∈ doc, e.key = x.key → ∀ b, e.style = .block b → ¬ b.Declares n)
    (ha : ∀ e ∈ job sem.test eng o doc, e.name = lit "style" → IsCss e.typ → ∀ s ∈ selsOfAll (e.sheet.getD []), ∀ n v, .attr n v ∈ s.tokens →
      n ≠ lit "class" ∧ n ≠ lit "id" ∧ n ≠ lit "style")
    (env : Q → Bool) (e e' : Elem V Q R) (hed : e ∈ doc) (hed' : e' ∈ job sem.test eng o doc) (hkey : e'.key = e.key) (p : Str) :
    value sem env (job sem.test eng o doc) e' p = value sem env doc e p := by
  obtain ⟨q1, q2, q3⟩ := exitAll_eq sem.test eng o doc doc
  generalize hst : (exitAll sem.test eng o doc doc).2 = st at q2 q3
  have htk : taken sem.test eng o doc = st.taken := by rw [taken, hst]
  generalize hrefs : doc.flatMap (·.refs) = refs
  let F : Elem V Q R → Elem V Q R := fun e => finish st refs (exitStyle sem.test eng o doc e).1
  have hjob : job sem.test eng o doc = doc.map F := by
    simp only [job, q1, hst, hrefs, List.map_map]
    rfl
  rw [htk] at hr hc ht hd
  rw [hjob] at hc ht hd ha hed' ⊢
  have hcl : ∀ e ∈ doc, ∀ l, e.sheet = some l → ∀ r ∈ l, Closed o r := by
    intro e hed l hl r hr
    cases r with
    | group text c rs => exact hm e hed l hl text c rs hr
    | _ => trivial
  have hmix := fun x hx => exitStyle_mix he o x (hg x hx) (hs x hx) (hcl x hx)
  have hfrom : ∀ t ∈ st.taken, FromSels sem doc t := by
    intro t ht
    rw [q3] at ht
    obtain ⟨x, hx, ht⟩ := List.mem_flatMap.mp ht
    exact (hmix x hx).1 t ht
  -- an element and its image
  have hF : ∀ e : Elem V Q R, (F e).key = e.key ∧ ∀ env, (Counts env (F e) ↔ Counts env (exitStyle sem.test eng o doc e).1) ∧
      (F e).sheet = (exitStyle sem.test eng o doc e).1.sheet ∧ (F e).name = e.name ∧ (F e).typ = e.typ := by
    intro e
    obtain ⟨a1, a2, a3, a4, a5, a6, _⟩ := finish_spec st refs (exitStyle sem.test eng o doc e).1
    obtain ⟨b1, b2, _, _, _, _, _, _, b9, _⟩ := exitStyle_same sem.test eng o doc e
    refine ⟨a1.trans b1, fun env => ⟨?_, a5, a2.trans b2, a3.trans b9⟩⟩
    show Counts env (finish st refs (exitStyle sem.test eng o doc e).1) ↔ _
    simp only [Counts, a2, a3, a4, a6]
  -- tokens of the selectors that stay
  have hsafe : ∀ x ∈ doc, ∀ env, Counts env (F x) → ∀ s ∈ selsOfAll ((F x).sheet.getD []), ∀ t ∈ s.tokens, Safe doc st t := by
    intro x hx env hcn s hsx t htx
    have hxm : F x ∈ doc.map F := List.mem_map.mpr ⟨x, hx, rfl⟩
    have hn := hcn.1
    have hcss := hcn.2.1
    have h3 := (hmix x hx).2.2 env (((hF x).2 env).1.mp hcn) s (((hF x).2 env).2.1 ▸ hsx) t htx
    rw [← ((hF x).2 env).2.1] at h3
    have hdyn : t ∈ (exitStyle sem.test eng o doc x).2.dyn → t ∈ st.dyn := by
      intro h
      rw [q2]
      exact List.mem_flatMap.mpr ⟨x, hx, h⟩
    have htop : t ∈ ((F x).sheet.getD []).flatMap topTails → ∃ r ∈ (F x).sheet.getD [], t ∈ topTails r := List.mem_flatMap.mp
    cases t with
    | cls c =>
      refine h3.imp hdyn fun h => ?_
      obtain ⟨r, hr, h⟩ := htop h
      exact ht _ hxm hn hcss r hr _ h ⟨c, .inl rfl⟩
    | id i =>
      refine h3.imp hdyn fun h => ?_
      obtain ⟨r, hr, h⟩ := htop h
      exact ht _ hxm hn hcss r hr _ h ⟨i, .inr rfl⟩
    | attr n v =>
      refine ⟨ha _ hxm hn hcss s hsx n v htx, h3.imp hdyn fun h => ?_⟩
      obtain ⟨r, hr, h⟩ := htop h
      exact hd _ hxm hn hcss r hr n v h
    | name n => trivial
    | other s v => trivial
  have hholds : ∀ t, Safe doc st t → ∀ k, holds sem (doc.map F) k t = holds sem doc k t := by
    intro t hsf k
    simp only [holds, List.any_map]
    rw [Bool.eq_iff_iff, List.any_eq_true, List.any_eq_true]
    have : ∀ x ∈ doc, holdsE sem (F x) t = holdsE sem x t := by
      intro x hx
      obtain ⟨b1, b2, _, b4, b5, b6, b7, _⟩ := exitStyle_same sem.test eng o doc x
      exact holdsE_kept sem doc hk st refs hfrom x _ hx ⟨b1, b2, b4, b5, b6, b7⟩ t hsf
    constructor
    · rintro ⟨x, hx, h⟩
      refine ⟨x, hx, ?_⟩
      simp only [Function.comp, (hF x).1, this x hx] at h
      exact h
    · rintro ⟨x, hx, h⟩
      refine ⟨x, hx, ?_⟩
      simp only [Function.comp, (hF x).1, this x hx]
      exact h
  -- the rules that stay match the same elements
  have hloc : declEach sem env (holds sem (doc.map F)) (doc.map F) e.key = declEach sem env (holds sem doc) (doc.map F) e.key := by
    simp only [declEach]
    rw [List.flatMap_def, List.flatMap_def]
    congr 1
    apply List.map_congr_left
    intro y hy
    obtain ⟨x, hx, rfl⟩ := List.mem_map.mp hy
    by_cases hcn : Counts env (F x)
    · rw [if_pos hcn, if_pos hcn]
      exact eachAll_local sem env _ _ e.key _ fun s hsx t htx k => hholds t (hsafe x hx env hcn s hsx t htx) k
    · rw [if_neg hcn, if_neg hcn]
  have hmixAll : Mix (mine e.key st.taken) (declEach sem env (holds sem doc) (doc.map F) e.key) (declEach sem env (holds sem doc) doc e.key) := by
    rw [q3, mine_flatMap]
    simp only [declEach, List.flatMap_map]
    apply mix_flatMap
    intro x hx
    have := (hmix x hx).2.1 env e hed
    rw [((hF x).2 env).2.1]
    by_cases hcn : Counts env (F x)
    · rw [if_pos hcn]
      rwa [if_pos (((hF x).2 env).1.mp hcn)] at this
    · rw [if_neg hcn]
      rwa [if_neg fun h => hcn (((hF x).2 env).1.mpr h)] at this
  -- the element
  obtain ⟨x, hx, rfl⟩ := List.mem_map.mp hed'
  have hxe : x = e := key_inj hk hx hed (by rw [← (hF x).1, hkey])
  subst hxe
  obtain ⟨b1, _, _, _, _, b6, b7, _⟩ := exitStyle_same sem.test eng o doc x
  obtain ⟨a1, _, _, _, _, _, _, _, a9, a10, _⟩ := finish_spec st refs (exitStyle sem.test eng o doc x).1
  rw [b1, b6] at a10
  rw [b1] at a9
  simp only [value]
  rw [(hF x).1, best_each, best_each, best_each, best_each, hloc]
  generalize hB : declEach sem env (holds sem doc) (doc.map F) x.key = B at hmixAll
  generalize hC : declEach sem env (holds sem doc) doc x.key = C at hmixAll
  by_cases hgr : st.taken.filter (fun t => t.key = x.key) = []
  · have h1 : F x = (exitStyle sem.test eng o doc x).1 := a9 hgr
    have h2 : mine x.key st.taken = [] := by simp [mine, hgr]
    rw [h2] at hmixAll
    rw [hmixAll.nil_left, h1, b6, b7]
  · obtain ⟨h1, h2⟩ := a10 hgr
    rw [b7] at h2
    have h1' : (F x).style = _ := h1
    have h2' : (F x).attrs = _ := h2
    rw [h1', h2', inline_new]
    have hsub : ∀ y ∈ st.taken.filter (fun t => t.key = x.key), y ∈ st.taken ∧ y.key = x.key := by
      intro y hy
      simpa using List.mem_filter.mp hy
    obtain ⟨y0, l0, hy0⟩ := List.exists_cons_of_ne_nil hgr
    have hy0' : y0 ∈ st.taken.filter (fun t => t.key = x.key) := by rw [hy0]; simp
    have hraw : ∀ n, x.style ≠ .raw n := hr y0 (hsub y0 hy0').1 x hed (hsub y0 hy0').2.symm
    have hstyle : ∀ g : List (Taken V), newStyle g x.style = ⟨(g.flatMap fun t => t.block.normal) ++ (inline sem x.style).normal,
        (g.flatMap fun t => t.block.important) ++ (inline sem x.style).important⟩ := by
      intro g
      cases hxs : x.style with
      | raw n => exact absurd hxs (hraw n)
      | _ => rfl
    have hnew : ∀ get : Block V → List (Str × V), get = (·.normal) ∨ get = (·.important) →
        last p (get (newStyle (sort (st.taken.filter fun t => t.key = x.key)) x.style)) =
          (last p (get (inline sem x.style))).or
            (((mine x.key st.taken).filterMap (say p get)).foldl stronger none |>.map (·.2)) := by
      intro get hget
      have hb := sort_best p get (st.taken.filter fun t => t.key = x.key)
      rw [best_say] at hb
      simp only [mine]
      rw [← hb]
      rcases hget with rfl | rfl
      · simp only [hstyle, last_append]
      · simp only [hstyle, last_append]
    rw [hnew (·.important) (.inr rfl), hnew (·.normal) (.inl rfl)]
    by_cases hdec : ∃ y ∈ st.taken.filter (fun t => t.key = x.key), y.block.Declares p
    · obtain ⟨y, hy, hyp⟩ := hdec
      have hBn : ∀ z ∈ B, ¬ z.2.Declares p := by
        intro z hz
        rw [← hB] at hz
        obtain ⟨w, hw, hwz⟩ := declEach_block sem env _ _ _ z hz
        rw [← hwz]
        exact hc y (hsub y hy).1 env w (by rw [(hsub y hy).2]; exact hw) p hyp
      have e1 : C.filterMap (say p (·.important)) = (mine x.key st.taken).filterMap (say p (·.important)) := by
        have := hmixAll.filterMap (say p (·.important))
        rw [say_none (.inr rfl) hBn] at this
        exact this.nil_right
      have e2 : C.filterMap (say p (·.normal)) = (mine x.key st.taken).filterMap (say p (·.normal)) := by
        have := hmixAll.filterMap (say p (·.normal))
        rw [say_none (.inl rfl) hBn] at this
        exact this.nil_right
      rw [say_none (.inr rfl) hBn, say_none (.inl rfl) hBn, e1, e2]
      have hsome : last p (newStyle (sort (st.taken.filter fun t => t.key = x.key)) x.style).important ≠ none ∨
          last p (newStyle (sort (st.taken.filter fun t => t.key = x.key)) x.style).normal ≠ none := by
        obtain ⟨v, hv⟩ := hyp
        have hms := (sort_spec [] (·.normal) (st.taken.filter fun t => t.key = x.key)).2.1
        rcases hv with hv | hv
        · right
          intro hn
          rw [last_none] at hn
          exact hn v (by simp only [newStyle, List.mem_append, List.mem_flatMap]; exact .inl ⟨y, (hms y).mpr hy, hv⟩)
        · left
          intro hn
          rw [last_none] at hn
          exact hn v (by simp only [newStyle, List.mem_append, List.mem_flatMap]; exact .inl ⟨y, (hms y).mpr hy, hv⟩)
      rw [hnew (·.important) (.inr rfl), hnew (·.normal) (.inl rfl)] at hsome
      revert hsome
      generalize last p (inline sem x.style).important = u1
      generalize last p (inline sem x.style).normal = u2
      generalize (((mine x.key st.taken).filterMap (say p (·.important))).foldl stronger none).map (·.2) = u3
      generalize (((mine x.key st.taken).filterMap (say p (·.normal))).foldl stronger none).map (·.2) = u4
      cases u1 <;> cases u2 <;> cases u3 <;> cases u4 <;> simp
    · have hAn : ∀ z ∈ mine x.key st.taken, ¬ z.2.Declares p := by
        intro z hz hp
        simp only [mine, List.mem_map] at hz
        obtain ⟨y, hy, rfl⟩ := hz
        exact hdec ⟨y, hy, hp⟩
      have e1 : C.filterMap (say p (·.important)) = B.filterMap (say p (·.important)) := by
        have := hmixAll.filterMap (say p (·.important))
        rw [say_none (.inr rfl) hAn] at this
        exact this.nil_left
      have e2 : C.filterMap (say p (·.normal)) = B.filterMap (say p (·.normal)) := by
        have := hmixAll.filterMap (say p (·.normal))
        rw [say_none (.inl rfl) hAn] at this
        exact this.nil_left
      rw [say_none (.inr rfl) hAn, say_none (.inl rfl) hAn, e1, e2]
      simp only [List.foldl_nil, Option.map_none, Option.or_none]
      by_cases hold : (inline sem x.style).Declares p
      · obtain ⟨v, hv⟩ := hold
        have hsome : last p (inline sem x.style).important ≠ none ∨ last p (inline sem x.style).normal ≠ none := by
          rcases hv with hv | hv
          · exact .inr fun hn => last_none.mp hn v hv
          · exact .inl fun hn => last_none.mp hn v hv
        revert hsome
        generalize last p (inline sem x.style).important = u1
        generalize last p (inline sem x.style).normal = u2
        generalize ((B.filterMap (say p (·.important))).foldl stronger none).map (·.2) = u3
        cases u1 <;> cases u2 <;> cases u3 <;> simp
      · rw [dropAttrs_find]
        left
        intro hdn
        rcases newStyle_declares hdn with ⟨y, hy, hd⟩ | ⟨b, hb, hd⟩
        · exact hdec ⟨y, hy, hd⟩
        · rw [hb] at hold
          exact hold hd

end Verif.Inline
