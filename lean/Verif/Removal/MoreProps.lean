import Verif.Removal.More

/-!
# C26: elements by attributes, images and the data of editors
-/

namespace Verif.Removal

open Verif.Tree Verif.Names

/-! ## Elements by attributes -/

/-- An element whose id is listed or one of whose classes is. -/
def isListed (ids classes : List Str) : Node IdAttr → Bool
  | .elem _ as _ =>
    ((as.findSome? fun a => match a with | .id v => some v | _ => none).any fun v => decide (v ∈ ids)) ||
    ((as.findSome? fun a => match a with | .class ts => some ts | _ => none).any fun ts => ts.any fun c => decide (c ∈ classes))
  | _ => false

theorem idOf_find (as : List IdAttr) : idOf as = as.findSome? fun a => match a with | .id v => some v | _ => none := by
  induction as with
  | nil => rfl
  | cons a as ih => cases a <;> simp [idOf, List.findSome?, ih]

theorem classesOf_find (as : List IdAttr) :
    classesOf as = (as.findSome? fun a => match a with | .class ts => some ts | _ => none).getD [] := by
  induction as with
  | nil => rfl
  | cons a as ih => cases a <;> simp [classesOf, List.findSome?, ih]

theorem byAttr_prune (ids classes : List Str) (doc : List (Node IdAttr)) :
    visitAll (byAttrHook ids classes) doc = .ok (pruneAll (fun n => kept (!isListed ids classes n) (own n)) doc) := by
  apply visitAll_ok
  intro m _
  cases m with
  | elem n as ks =>
    simp only [byAttrHook, isListed, idOf_find, classesOf_find, own]
    generalize (as.findSome? fun a => match a with | .id v => some v | _ => none) = i
    generalize (as.findSome? fun a => match a with | .class ts => some ts | _ => none) = c
    have any_mem : ∀ (l : List Str) (v : Str), (l.any fun x => x == v) = decide (v ∈ l) := by
      intro l v
      rw [Bool.eq_iff_iff]
      simp
    simp only [any_mem]
    have e1 : (!ids.isEmpty && i.any (fun v => decide (v ∈ ids))) = i.any fun v => decide (v ∈ ids) := by
      cases i with
      | none => simp
      | some v => cases ids <;> simp
    have e2 : classes = [] → (c.any fun ts => ts.any fun x => decide (x ∈ classes)) = false := by
      rintro rfl
      cases c <;> simp
    rw [e1]
    cases hi : (i.any fun v => decide (v ∈ ids)) with
    | true => simp [kept]
    | false =>
      cases classes with
      | nil => simp only [e2 rfl]; simp [kept]
      | cons x xs =>
        cases c <;> simp [kept]
  | _ => rfl

/-- **C26 (elements by attributes)** Exactly the elements with a listed id or a listed class go away, with what they contain; a second
run changes nothing. -/
theorem byAttr_spec (ids classes : List Str) (doc : List (Node IdAttr)) : ∃ out, removeByAttr ids classes doc = .ok out ∧
    outline out = remaining (isListed ids classes) id doc ∧ removeByAttr ids classes out = .ok out := by
  refine ⟨_, byAttr_prune ids classes doc, ?_, ?_⟩
  · rw [outline_prune (edits_own fun n as e => kept_own e)]
    congr 1
    funext n
    simp [kept_isNone]
  · rw [removeByAttr, start, if_pos rfl, byAttr_prune, pruneAll_idem]
    intro nm as ks as' _ e
    have := kept_own e
    rw [this] at e ⊢
    exact e

example : removeByAttr [lit "a"] [lit "k"] [.elem ⟨.std .svg, lit "svg"⟩ [.id (lit "b")] [.elem ⟨.std .svg, lit "g"⟩ [.id (lit "a")] [],
    .elem ⟨.std .svg, lit "g"⟩ [.other (lit "x") [], .class [lit "m", lit "k"]] [], .elem ⟨.std .svg, lit "g"⟩ [.class [lit "m"]] []]] =
    .ok [.elem ⟨.std .svg, lit "svg"⟩ [.id (lit "b")] [.elem ⟨.std .svg, lit "g"⟩ [.class [lit "m"]] []]] := rfl

/-! ## Images -/

/-- A reference is taken for a raster image if one of the four words stands at its start, after a dot, or after `image/`. -/
def LooksRaster (s : List Char) : Prop :=
  ∃ before word after : List Char, s = before ++ word ++ after ∧ word ∈ ["jpeg".toList, "jpg".toList, "png".toList, "gif".toList] ∧
    (before = [] ∨ (∃ b, before = b ++ ['.']) ∨ ∃ b, before = b ++ "image/".toList)

/-- The pieces that begin with a word, if no separator begins within the word or within another separator. -/
theorem split_any {sep word : List Char} (hsep : sep ≠ []) (hno : ∀ p q r, word = p ++ q → q ≠ [] → ¬ sep <+: q ++ r)
    (hself : ∀ p q r, sep = p ++ q → p ≠ [] → q ≠ [] → ¬ sep <+: q ++ r) (acc s : List Char) :
    (∃ e ∈ splitOn sep acc s, word <+: e) ↔ word <+: acc ++ s ∨ ∃ b a, s = b ++ (sep ++ (word ++ a)) := by
  induction acc, s using splitOn.induct sep with
  | case1 acc =>
    rw [splitOn]
    constructor
    · rintro ⟨e, he, hw⟩
      rw [List.mem_singleton] at he
      subst he
      exact .inl (by simpa using hw)
    · rintro (h | ⟨b, a, h⟩)
      · exact ⟨acc, by simp, by simpa using h⟩
      · exact absurd h.symm (by simp [hsep])
  | case2 acc c cs hp ih =>
    rw [splitOn, if_pos hp]
    rw [List.isPrefixOf_iff_prefix] at hp
    obtain ⟨t, ht⟩ := hp
    have hdrop : cs.drop (sep.length - 1) = t := by
      cases sep with
      | nil => exact absurd rfl hsep
      | cons x xs =>
        simp only [List.cons_append, List.cons.injEq] at ht
        rw [← ht.2]
        simp
    rw [hdrop] at ih ⊢
    rw [← ht]
    constructor
    · rintro ⟨e, he, hw⟩
      rcases List.mem_cons.mp he with rfl | he
      · exact .inl (hw.trans (List.prefix_append _ _))
      · rcases ih.mp ⟨e, he, hw⟩ with ⟨r, h⟩ | ⟨b, a, h⟩
        · exact .inr ⟨[], r, by simp only [List.nil_append] at h ⊢; rw [h]⟩
        · exact .inr ⟨sep ++ b, a, by rw [h]; simp⟩
    · rintro (⟨r, h⟩ | ⟨b, a, h⟩)
      · rcases List.append_eq_append_iff.mp h with ⟨x, h1, h2⟩ | ⟨x, h1, h2⟩
        · exact ⟨acc, by simp, ⟨x, h1.symm⟩⟩
        · by_cases hx : x = []
          · subst hx
            exact ⟨acc, by simp, by rw [h1]; simp⟩
          · exact absurd ⟨t, h2⟩ (hno acc x r h1 hx)
      · have : (∃ e ∈ splitOn sep [] t, word <+: e) := by
          rw [ih]
          rcases List.append_eq_append_iff.mp h with ⟨x, h1, h2⟩ | ⟨x, h1, h2⟩
          · exact .inr ⟨x, a, h2⟩
          · by_cases hx : x = []
            · subst hx
              simp only [List.nil_append] at h2
              have : sep = b := by simpa using h1
              exact .inr ⟨[], a, by simpa using h2.symm⟩
            · by_cases hb : b = []
              · subst hb
                simp only [List.nil_append] at h1
                subst h1
                exact .inl ⟨a, by simpa using h2⟩
              · exact absurd ⟨word ++ a, h2⟩ (hself b x t h1 hb hx)
        obtain ⟨e, he, hw⟩ := this
        exact ⟨e, by simp [he], hw⟩
  | case3 acc c cs hp ih =>
    rw [splitOn, if_neg hp, ih]
    rw [List.isPrefixOf_iff_prefix] at hp
    have e : acc ++ [c] ++ cs = acc ++ (c :: cs) := by simp
    rw [e]
    refine or_congr_right ⟨?_, ?_⟩
    · rintro ⟨b, a, h⟩
      exact ⟨c :: b, a, by rw [h]; rfl⟩
    · rintro ⟨b, a, h⟩
      cases b with
      | nil => exact absurd ⟨word ++ a, h.symm⟩ hp
      | cons x b =>
        simp only [List.cons_append, List.cons.injEq] at h
        exact ⟨b, a, h.2⟩

theorem no_head {c : Char} {sep w : List Char} (h : c ∉ w) (p q r : List Char) (e : w = p ++ q) (hq : q ≠ []) : ¬ (c :: sep) <+: q ++ r := by
  rintro ⟨t, ht⟩
  cases q with
  | nil => exact hq rfl
  | cons x q =>
    simp only [List.cons_append, List.cons.injEq] at ht
    exact h (by rw [e, ht.1]; simp)

/-- `isRaster` looks for the four words at the start of pieces. -/
theorem raster_pieces (s : List Char) : isRaster s = true ↔ ∃ w ∈ ["jpeg".toList, "jpg".toList, "png".toList, "gif".toList],
    (∃ e ∈ splitOn ['.'] [] s, w <+: e) ∨ ∃ e ∈ splitOn "image/".toList [] s, w <+: e := by
  have take3 : ∀ (e w : List Char), w.length = 3 → ((e.take 3 == w) = true ↔ w <+: e) := by
    intro e w hw
    rw [beq_iff_eq, List.prefix_iff_eq_take, hw]
    exact eq_comm
  simp only [isRaster, List.any_eq_true, List.mem_append, Bool.or_eq_true, List.isPrefixOf_iff_prefix, take3 _ "jpg".toList rfl,
    take3 _ "png".toList rfl, take3 _ "gif".toList rfl, List.mem_cons, List.not_mem_nil, or_false]
  constructor
  · rintro ⟨e, he, hw⟩
    rcases hw with h | (h | h) | h
    · exact ⟨_, .inl rfl, he.imp (fun he => ⟨e, he, h⟩) (fun he => ⟨e, he, h⟩)⟩
    · exact ⟨_, .inr (.inl rfl), he.imp (fun he => ⟨e, he, h⟩) (fun he => ⟨e, he, h⟩)⟩
    · exact ⟨_, .inr (.inr (.inl rfl)), he.imp (fun he => ⟨e, he, h⟩) (fun he => ⟨e, he, h⟩)⟩
    · exact ⟨_, .inr (.inr (.inr rfl)), he.imp (fun he => ⟨e, he, h⟩) (fun he => ⟨e, he, h⟩)⟩
  · rintro ⟨w, hw, he⟩
    have : ∃ e, (e ∈ splitOn ['.'] [] s ∨ e ∈ splitOn "image/".toList [] s) ∧ w <+: e := by
      rcases he with ⟨e, h1, h2⟩ | ⟨e, h1, h2⟩
      · exact ⟨e, .inl h1, h2⟩
      · exact ⟨e, .inr h1, h2⟩
    obtain ⟨e, h1, h2⟩ := this
    refine ⟨e, h1, ?_⟩
    rcases hw with rfl | rfl | rfl | rfl
    · exact .inl h2
    · exact .inr (.inl (.inl h2))
    · exact .inr (.inl (.inr h2))
    · exact .inr (.inr h2)

/-- The test, in terms of the reference. -/
theorem raster_iff (s : List Char) : isRaster s = true ↔ LooksRaster s := by
  have dot : ∀ w ∈ ["jpeg".toList, "jpg".toList, "png".toList, "gif".toList],
      ((∃ e ∈ splitOn ['.'] [] s, w <+: e) ↔ w <+: s ∨ ∃ b a, s = b ++ (['.'] ++ (w ++ a))) := by
    intro w hw
    refine split_any (acc := []) (by simp) (no_head ?_) (fun p q r e hp hq => ?_) s
    · simp only [List.mem_cons, List.not_mem_nil, or_false] at hw
      rcases hw with rfl | rfl | rfl | rfl <;> decide
    · cases p with
      | nil => exact absurd rfl hp
      | cons x p =>
        simp only [List.cons_append, List.cons.injEq] at e
        have := e.2.symm
        simp at this
        exact absurd this.2 hq
  have image : ∀ w ∈ ["jpeg".toList, "jpg".toList, "png".toList, "gif".toList],
      ((∃ e ∈ splitOn "image/".toList [] s, w <+: e) ↔ w <+: s ∨ ∃ b a, s = b ++ ("image/".toList ++ (w ++ a))) := by
    intro w hw
    refine split_any (acc := []) (by decide) ?_ (fun p q r e hp hq => ?_) s
    · simp only [List.mem_cons, List.not_mem_nil, or_false] at hw
      rcases hw with rfl | rfl | rfl | rfl
      · exact no_head (c := 'i') (sep := "mage/".toList) (by decide)
      · exact no_head (c := 'i') (sep := "mage/".toList) (by decide)
      · exact no_head (c := 'i') (sep := "mage/".toList) (by decide)
      · rintro p q r e hq ⟨t, ht⟩
        have e' : ['g', 'i', 'f'] = p ++ q := e
        have ht' : 'i' :: 'm' :: ("age/".toList ++ t) = q ++ r := ht
        match p, q, e', hq, ht' with
        | [], q, e', _, ht' => simp only [List.nil_append] at e'; subst e'; simp at ht'
        | [_], q, e', _, ht' => simp only [List.cons_append, List.nil_append, List.cons.injEq] at e'; obtain ⟨-, rfl⟩ := e'; simp at ht'
        | [_, _], q, e', _, ht' =>
          simp only [List.cons_append, List.nil_append, List.cons.injEq] at e'; obtain ⟨-, -, rfl⟩ := e'; simp at ht'
        | _ :: _ :: _ :: p, q, e', hq, _ =>
          simp only [List.cons_append, List.cons.injEq] at e'
          have := e'.2.2.2.symm
          simp at this
          exact hq this.2
    · cases p with
      | nil => exact absurd rfl hp
      | cons x p =>
        have e' : 'i' :: "mage/".toList = x :: (p ++ q) := e
        simp only [List.cons.injEq] at e'
        exact no_head (c := 'i') (sep := "mage/".toList) (by decide) p q r e'.2 hq
  rw [raster_pieces, LooksRaster]
  constructor
  · rintro ⟨w, hw, h⟩
    rw [dot w hw, image w hw] at h
    have : w <+: s ∨ (∃ b a, s = b ++ (['.'] ++ (w ++ a))) ∨ ∃ b a, s = b ++ ("image/".toList ++ (w ++ a)) := by
      rcases h with (h | h) | (h | h)
      · exact .inl h
      · exact .inr (.inl h)
      · exact .inl h
      · exact .inr (.inr h)
    rcases this with ⟨a, h⟩ | ⟨b, a, h⟩ | ⟨b, a, h⟩
    · exact ⟨[], w, a, by simpa using h.symm, hw, .inl rfl⟩
    · exact ⟨b ++ ['.'], w, a, by rw [h]; simp, hw, .inr (.inl ⟨b, rfl⟩)⟩
    · exact ⟨b ++ "image/".toList, w, a, by rw [h]; simp, hw, .inr (.inr ⟨b, rfl⟩)⟩
  · rintro ⟨b, w, a, h, hw, hb⟩
    refine ⟨w, hw, ?_⟩
    rw [dot w hw, image w hw]
    rcases hb with rfl | ⟨b', rfl⟩ | ⟨b', rfl⟩
    · exact .inl (.inl ⟨a, by rw [h]; simp⟩)
    · exact .inl (.inr ⟨b', a, by rw [h]; simp⟩)
    · exact .inr (.inr ⟨b', a, by rw [h]; simp⟩)

/-- An image that is taken for a raster image. -/
def isRasterImage {A : Type} (href : List A → Option (List Char)) : Node A → Bool
  | .elem n as _ => isNamed "image" (.elem n as []) && (href as).any isRaster
  | _ => false

theorem rasterImage_iff {A : Type} (href : List A → Option (List Char)) (n : EName) (as : List A) (ks : List (Node A)) :
    isRasterImage href (.elem n as ks) = true ↔ n.is "image" = true ∧ ∃ v, href as = some v ∧ LooksRaster v := by
  have h : isNamed "image" (.elem n as []) = n.is "image" := rfl
  simp [isRasterImage, h, Option.any_eq_true, raster_iff]

theorem raster_prune {A : Type} (href : List A → Option (List Char)) (doc : List (Node A)) :
    visitAll (rasterHook href) doc = .ok (pruneAll (fun n => kept (!isRasterImage href n) (own n)) doc) := by
  apply visitAll_ok
  intro m _
  cases m with
  | elem n as ks =>
    have h : isNamed "image" (.elem n as []) = n.is "image" := rfl
    simp only [rasterHook, isRasterImage, own, h]
    cases n.is "image" <;> cases href as <;> simp [kept]
  | _ => rfl

/-- **C26 (raster images)** Exactly the images go away whose reference has one of the words `jpeg`, `jpg`, `png` and `gif` at its start, after
a dot or after `image/` (`rasterImage_iff`). -/
theorem raster_spec {A : Type} (href : List A → Option (List Char)) (doc : List (Node A)) : ∃ out, removeRaster href true doc = .ok out ∧
    outline out = remaining (isRasterImage href) id doc ∧ removeRaster href true out = .ok out := by
  refine ⟨_, raster_prune href doc, ?_, ?_⟩
  · rw [outline_prune (edits_own fun n as e => kept_own e)]
    congr 1
    funext n
    simp [kept_isNone]
  · rw [removeRaster, start, if_pos rfl, raster_prune, pruneAll_idem]
    intro nm as ks as' _ e
    have := kept_own e
    rw [this] at e ⊢
    exact e

/-- **C26 (switches)** -/
theorem raster_off {A : Type} (href : List A → Option (List Char)) (doc : List (Node A)) : removeRaster href false doc = .ok doc := rfl

/-- Names and data of raster images. -/
example : isRaster "a/b.png".toList = true ∧ isRaster "data:image/jpeg;base64,x".toList = true ∧
    ¬ LooksRaster "a.svg".toList := by
  refine ⟨(raster_iff _).mpr ⟨"a/b.".toList, "png".toList, [], rfl, by decide, .inr (.inl ⟨"a/b".toList, rfl⟩)⟩,
    (raster_iff _).mpr ⟨"data:image/".toList, "jpeg".toList, ";base64,x".toList, rfl, by decide, .inr (.inr ⟨"data:".toList, rfl⟩)⟩, ?_⟩
  rw [← raster_iff]
  simp [isRaster, splitOn]

/-- **C26 (raster images, violated)** Vector images whose names or addresses have one of the words in such a place go away too. -/
theorem raster_violated : isRaster "gifts.svg".toList = true ∧ isRaster "pngs/a.svg".toList = true ∧
    isRaster "http://cdn.jpgs.org/a.svg".toList = true ∧ isRaster "icons.png.svg".toList = true := by
  simp only [raster_iff]
  refine ⟨⟨[], "gif".toList, "ts.svg".toList, rfl, by decide, .inl rfl⟩, ⟨[], "png".toList, "s/a.svg".toList, rfl, by decide, .inl rfl⟩,
    ⟨"http://cdn.".toList, "jpg".toList, "s.org/a.svg".toList, rfl, by decide, .inr (.inl ⟨"http://cdn".toList, rfl⟩)⟩,
    ⟨"icons.".toList, "png".toList, ".svg".toList, rfl, by decide, .inr (.inl ⟨"icons".toList, rfl⟩)⟩⟩

/-! ## Data of editors -/

/-- The namespaces of drawing programs, licences and descriptions of documents. -/
def foreignUris : List String :=
  (["AdobeIllustrator/10.0/", "AdobeSVGViewerExtensions/3.0/", "Extensibility/1.0/", "Flows/1.0/", "GenericCustomNamespace/1.0/",
    "Graphs/1.0/", "ImageReplacement/1.0/", "SaveForWeb/1.0/", "Variables/1.0/", "XPath/1.0/"].map ("http://ns.adobe.com/" ++ ·)) ++
  ["http://inkscape.sourceforge.net/DTD/sodipodi-0.dtd", "http://sodipodi.sourceforge.net/DTD/sodipodi-0.dtd",
   "http://www.inkscape.org/namespaces/inkscape", "http://www.bohemiancoding.com/sketch/ns", "http://www.figma.com/figma/ns",
   "http://www.serif.com/", "http://www.vector.evaxdesign.sk", "http://taptrix.com/vectorillustrator/svg_extensions",
   "http://schemas.microsoft.com/visio/2003/SVGExtensions/", "http://creativecommons.org/ns#", "http://purl.org/dc/elements/1.1/",
   "http://www.w3.org/1999/02/22-rdf-syntax-ns#"]

theorem uris_same : (∀ u ∈ editorUris, u ∈ foreignUris) ∧ ∀ u ∈ foreignUris, u ∈ editorUris := by
  constructor
  · simp only [editorUris, List.forall_mem_cons]
    simp [foreignUris]
  · simp only [foreignUris, List.map_cons, List.map_nil, List.cons_append, List.nil_append, List.forall_mem_cons]
    simp [editorUris]

/-- A namespace of an editor, or one that is listed. -/
def isForeign (more : Option (List Str)) (uri : Str) : Bool :=
  decide (∃ u ∈ foreignUris, uri = lit u) || (more.getD []).contains uri

theorem isEditor_eq (more : Option (List Str)) (uri : Str) : isEditor more uri = isForeign more uri := by
  have h : editorUris.any (fun u => uri == lit u) = decide (∃ u ∈ foreignUris, uri = lit u) := by
    rw [Bool.eq_iff_iff, List.any_eq_true, decide_eq_true_iff]
    constructor
    · rintro ⟨u, h1, h2⟩; exact ⟨u, uris_same.1 u h1, by simpa using h2⟩
    · rintro ⟨u, h1, h2⟩; exact ⟨u, uris_same.2 u h1, by simpa using h2⟩
  rw [isEditor, h, isForeign]
  congr 1
  cases more with
  | none => rfl
  | some l =>
    rw [Bool.eq_iff_iff]
    simp only [Option.any_some, Option.getD_some, List.any_eq_true, beq_iff_eq, exists_eq_right, List.contains_eq_mem, decide_eq_true_eq]

/-- Elements of such a namespace. -/
def foreignElem (more : Option (List Str)) : Node NsAttr → Bool
  | .elem n _ _ => isForeign more n.pre.ns.uri
  | _ => false

/-- Attributes of such a namespace and declarations of one. -/
def foreignAttr (more : Option (List Str)) : NsAttr → Bool
  | .decl _ uri => isForeign more uri
  | .named p _ _ => isForeign more p.ns.uri

/-- An element without these attributes. -/
def withoutForeign (more : Option (List Str)) : Node NsAttr → Node NsAttr
  | .elem n as ks => .elem n (as.filter fun a => !foreignAttr more a) ks
  | n => n

/-- The decision of the job. -/
def editorKeep (more : Option (List Str)) (n : Node NsAttr) : Option (List NsAttr) :=
  kept (!foreignElem more n) (own (withoutForeign more n))

theorem editors_prune (more : Option (List Str)) (doc : List (Node NsAttr)) :
    visitAll (editorHook more) doc = .ok (pruneAll (editorKeep more) doc) := by
  apply visitAll_ok
  intro m _
  cases m with
  | elem n as ks =>
    simp only [editorHook, editorKeep, foreignElem, isEditor_eq, withoutForeign, own]
    have : staysBy more = fun a => !foreignAttr more a := by
      funext a
      cases a <;> simp [staysBy, foreignAttr, isEditor_eq]
    rw [this]
    cases isForeign more n.pre.ns.uri <;> simp [kept]
  | _ => rfl

/-- **C26 (data of editors)** Exactly the elements and attributes of the namespaces of editors, and of those listed, and the declarations of
these namespaces go away; a second run changes nothing. -/
theorem editors_spec (more : Option (List Str)) (doc : List (Node NsAttr)) : ∃ out, removeEditors more doc = .ok out ∧
    outline out = remaining (foreignElem more) (withoutForeign more) doc ∧ removeEditors more out = .ok out := by
  refine ⟨_, editors_prune more doc, ?_, ?_⟩
  · rw [outline_prune (f := withoutForeign more) ⟨?_, ?_⟩]
    · congr 1
      funext n
      simp [editorKeep, kept_isNone]
    · intro n as ks as' e
      simp only [editorKeep, foreignElem, withoutForeign, own] at e ⊢
      unfold kept at e
      split at e
      · cases e; rfl
      · cases e
    · intro x hx
      cases x with
      | elem n as ks => exact absurd rfl (hx n as ks)
      | _ => rfl
  · rw [removeEditors, start, if_pos rfl, editors_prune, pruneAll_idem]
    intro nm as ks as' _ e
    simp only [editorKeep, foreignElem, withoutForeign, own] at e ⊢
    unfold kept at e
    split at e
    · rename_i h
      cases e
      simp [kept, h]
    · cases e

/-- The value of the first declaration of a prefix among attributes. -/
def declared (as : List NsAttr) (p : Str) : Option Str :=
  as.findSome? fun a => match a with
    | .decl q u => if q = p then some u else none
    | _ => none

/-- Namespaces in XML, 6.1: the namespace of a prefix, given the attributes of the element and its ancestors, the nearest first. -/
def bound (scope : List (List NsAttr)) (p : Str) : Option Str := scope.findSome? fun as => declared as p

/-- A name written with a prefix is in the namespace of the prefix. -/
def NameOk (scope : List (List NsAttr)) (pre : Prefix) : Prop :=
  ∀ p, pre.value = some p → p = lit "xml" ∨ bound scope p = some pre.ns.uri

mutual
/-- All names of a tree are in the namespaces of their prefixes. -/
def Sound (scope : List (List NsAttr)) : Node NsAttr → Prop
  | .elem n as ks => NameOk (as :: scope) n.pre ∧ (∀ pre loc v, .named pre loc v ∈ as → NameOk (as :: scope) pre) ∧ SoundAll (as :: scope) ks
  | .text _ => True
  | .css _ => True
  | .comment _ => True
  | .pi _ _ => True
def SoundAll (scope : List (List NsAttr)) : List (Node NsAttr) → Prop
  | [] => True
  | n :: ns => Sound scope n ∧ SoundAll scope ns
end

theorem soundAll_append {scope : List (List NsAttr)} {a b : List (Node NsAttr)} :
    SoundAll scope (a ++ b) ↔ SoundAll scope a ∧ SoundAll scope b := by
  induction a with
  | nil => simp [SoundAll]
  | cons n ns ih => simp [SoundAll, ih, and_assoc]

theorem declared_filter (more : Option (List Str)) (as : List NsAttr) (p : Str) :
    (declared as p = none → declared (as.filter fun a => !foreignAttr more a) p = none) ∧
    ∀ u, declared as p = some u → isForeign more u = false → declared (as.filter fun a => !foreignAttr more a) p = some u := by
  induction as with
  | nil => exact ⟨fun h => h, fun u h => (nomatch h)⟩
  | cons a as ih =>
    cases a with
    | named pre loc v =>
      have e : ∀ l, declared (.named pre loc v :: l) p = declared l p := fun l => rfl
      rw [e, List.filter_cons]
      split
      · rw [e]; exact ih
      · exact ih
    | decl q u =>
      have e : ∀ l, declared (.decl q u :: l) p = if q = p then some u else declared l p := by
        intro l
        simp only [declared, List.findSome?_cons]
        split <;> simp_all
      rw [e, List.filter_cons]
      by_cases hq : q = p
      · rw [if_pos hq]
        refine ⟨fun h => (nomatch h), fun u' h hf => ?_⟩
        cases h
        rw [if_pos (by simp [foreignAttr, hf]), e, if_pos hq]
      · rw [if_neg hq]
        split
        · rw [e, if_neg hq]; exact ih
        · exact ih

theorem bound_filter (more : Option (List Str)) {scope : List (List NsAttr)} {p u : Str} (h : bound scope p = some u)
    (hf : isForeign more u = false) : bound (scope.map fun as => as.filter fun a => !foreignAttr more a) p = some u := by
  induction scope with
  | nil => cases h
  | cons as scope ih =>
    simp only [bound, List.findSome?_cons, List.map_cons] at h ⊢
    cases hd : declared as p with
    | some v =>
      rw [hd] at h
      cases h
      rw [(declared_filter more as p).2 u hd hf]
    | none =>
      rw [hd] at h
      rw [(declared_filter more as p).1 hd]
      exact ih h

theorem nameOk_filter {more : Option (List Str)} {scope : List (List NsAttr)} {pre : Prefix} (h : NameOk scope pre)
    (hf : isForeign more pre.ns.uri = false) : NameOk (scope.map fun as => as.filter fun a => !foreignAttr more a) pre := by
  intro p hp
  rcases h p hp with h | h
  · exact .inl h
  · exact .inr (bound_filter more h hf)

mutual
theorem sound_prune {more : Option (List Str)} {scope : List (List NsAttr)} (n : Node NsAttr) (h : Sound scope n) :
    SoundAll (scope.map fun as => as.filter fun a => !foreignAttr more a) (prune (editorKeep more) n) := by
  match n with
  | .elem n as ks =>
    rw [prune]
    have hk : editorKeep more (.elem n as ks) = kept (!isForeign more n.pre.ns.uri) (as.filter fun a => !foreignAttr more a) := rfl
    rw [hk]
    cases hf : isForeign more n.pre.ns.uri with
    | true => trivial
    | false =>
      refine ⟨⟨nameOk_filter h.1 hf, fun pre loc v hm => ?_, soundAll_prune ks h.2.2⟩, trivial⟩
      obtain ⟨h1, h2⟩ := List.mem_filter.mp hm
      exact nameOk_filter (h.2.1 pre loc v h1) (by simpa [foreignAttr] using h2)
  | .text _ => exact ⟨trivial, trivial⟩
  | .css _ => exact ⟨trivial, trivial⟩
  | .comment _ => exact ⟨trivial, trivial⟩
  | .pi _ _ => exact ⟨trivial, trivial⟩
theorem soundAll_prune {more : Option (List Str)} {scope : List (List NsAttr)} (ns : List (Node NsAttr)) (h : SoundAll scope ns) :
    SoundAll (scope.map fun as => as.filter fun a => !foreignAttr more a) (pruneAll (editorKeep more) ns) := by
  match ns with
  | [] => trivial
  | n :: ns => rw [pruneAll]; exact soundAll_append.mpr ⟨sound_prune n h.1, soundAll_prune ns h.2⟩
end

/-- **C26 (data of editors)** What remains is still in the namespaces of its prefixes: no declaration goes away that is needed. -/
theorem editors_sound {more : Option (List Str)} {doc out : List (Node NsAttr)} (h : SoundAll [] doc)
    (e : removeEditors more doc = .ok out) : SoundAll [] out := by
  have : out = pruneAll (editorKeep more) doc := by
    have := (editors_prune more doc).symm.trans e
    exact (Except.ok.inj this).symm
  rw [this]
  exact soundAll_prune (more := more) (scope := []) doc h

/-- The drawing program's own element, attribute and declarations go away; an unknown namespace stays unless it is listed. -/
def edited : List (Node NsAttr) :=
  [.elem ⟨.std .svg, lit "svg"⟩ [.decl (lit "sk") (lit "http://www.bohemiancoding.com/sketch/ns"), .decl (lit "my") (lit "http://my")]
    [.elem ⟨.unknown (some (lit "sk")) (.unknown (lit "http://www.bohemiancoding.com/sketch/ns")), lit "page"⟩ [] [.text []],
     .elem ⟨.std .svg, lit "g"⟩ [.named (.unknown (some (lit "sk")) (.unknown (lit "http://www.bohemiancoding.com/sketch/ns"))) (lit "type") [],
       .named (.unknown (some (lit "my")) (.unknown (lit "http://my"))) (lit "a") [], .named (.std .svg) (lit "fill") []] []]]

example : removeEditors none edited = .ok
  [.elem ⟨.std .svg, lit "svg"⟩ [.decl (lit "my") (lit "http://my")] [.elem ⟨.std .svg, lit "g"⟩
    [.named (.unknown (some (lit "my")) (.unknown (lit "http://my"))) (lit "a") [], .named (.std .svg) (lit "fill") []] []]] := by
  rfl

end Verif.Removal
