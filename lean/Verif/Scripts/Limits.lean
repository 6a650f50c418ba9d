import Verif.Scripts.Props
import Verif.Scripts.Heap

/-! # C72: limits, and examples -/

namespace Verif.Scripts

open Verif.Names (lit)

variable {V : Type}

/-- **C72 (things are lost)**: if a link to a script has a text between two elements (white space is enough), then all of the link behind the text, and
all that follows the link in its parent, is lost, and the text stays. -/
theorem lost_violated (as : List Attr) (hl : Link ⟨.svg, "a"⟩ as) {n m : Name} {bs cs : List Attr} (hn : n ≠ ⟨.svg, "script"⟩) (hn' : ¬ Link n bs)
    (hm : m ≠ ⟨.svg, "script"⟩) (hm' : ¬ Link m cs) (ks ls z after : List (Node V)) (t : V) :
    ∃ ds, Without Event bs ds ∧
      run true (.elem ⟨.svg, "a"⟩ as (.elem n bs ks :: .text t :: .elem m cs ls :: z) :: after) = [.elem n ds (run true ks), .text t] := by
  refine ⟨_, without_filter isEvent_iff bs, ?_⟩
  simp only [run, if_true]
  rw [visitAll, visit_link _ as _ hl]
  have e : visitAll (.elem n bs ks :: .text t :: .elem m cs ls :: z) =
      .elem n (bs.filter fun a => !isEvent a) (visitAll ks) :: .text t :: .elem m (cs.filter fun a => !isEvent a) (visitAll ls) :: visitAll z := by
    rw [visitAll, visit_elem n bs ks hn hn', visitAll, visitAll, visit_elem m cs ls hm hm']
    simp [visit]
  rw [e]
  simp [dissolve, isText, List.dropWhile, List.takeWhile]

/-- **C72 (text is lost)**: text in a link to a script is shown, but is taken away. -/
theorem text_violated (as : List Attr) (hl : Link ⟨.svg, "a"⟩ as) (t : V) : run true [.elem ⟨.svg, "text"⟩ [] [.elem ⟨.svg, "a"⟩ as [.text t]]] =
    [.elem ⟨.svg, "text"⟩ [] []] := by
  simp only [run, if_true]
  rw [visitAll, visit_elem _ _ _ (by decide) (fun h => absurd h.1 (by decide))]
  simp only [visitAll]
  rw [visit_link _ as _ hl]
  simp [visitAll, visit, dissolve, isText, List.dropWhile, List.takeWhile]

/-- **C72 (scripts of HTML stay)**: and the search for scripts does not find them. -/
theorem html_violated (as : List Attr) (ks : List (Node V)) : Danger (run true [.elem ⟨.html, "script"⟩ as ks]) ∧
    hasScripts [.elem ⟨.html, "script"⟩ [] ([] : List (Node V))] = false := by
  refine ⟨?_, by simp [hasScripts, hasScript, script]⟩
  simp only [run, if_true]
  rw [visitAll, visit_elem _ _ _ (by decide) (fun h => absurd h.1 (by decide))]
  exact .element (.here List.mem_cons_self) rfl (.inr rfl)

/-- **C72 (other events stay)**: attributes for events that are not in the table; several of SVG and HTML are not. -/
theorem event_violated (name : String) (rest : List Char) (hr : name.toList = 'o' :: 'n' :: rest) (hn : name ∉ events) (v : List Nat) (ks : List (Node V)) :
    Danger (run true [.elem ⟨.svg, "rect"⟩ [⟨.plain, name, v⟩] ks]) ∧ hasScripts [.elem ⟨.svg, "rect"⟩ [⟨.plain, name, v⟩] ([] : List (Node V))] = false := by
  have he : ¬ Event ⟨.plain, name, v⟩ := fun h => hn h.2
  constructor
  · simp only [run, if_true]
    rw [visitAll, visit_elem _ _ _ (by decide) (fun h => absurd h.1 (by decide))]
    have : ([⟨.plain, name, v⟩] : List Attr).filter (fun a => !isEvent a) = [⟨.plain, name, v⟩] := by
      rw [List.filter_eq_self]
      intro a ha
      rw [List.mem_singleton] at ha
      subst ha
      simp only [Bool.not_eq_true', Bool.eq_false_iff, ne_eq, isEvent_iff]
      exact he
    rw [this]
    exact .event (.here List.mem_cons_self) List.mem_cons_self rfl hr
  · rw [Bool.eq_false_iff, ne_eq, hasScripts_iff]
    rintro ⟨n, as, h, hf⟩
    cases h with
    | here hm =>
      simp only [List.mem_singleton, Node.elem.injEq] at hm
      obtain ⟨rfl, rfl, -⟩ := hm
      rcases hf with hf | ⟨a, ha, hf⟩ | ⟨hn', _⟩
      · revert hf; decide
      · rw [List.mem_singleton] at ha
        exact he (ha ▸ hf)
      · revert hn'; decide
    | deep hm h =>
      simp only [List.mem_singleton, Node.elem.injEq] at hm
      obtain ⟨-, -, rfl⟩ := hm
      cases h with
      | here hm => cases hm
      | deep hm => cases hm

theorem events_missing : "onblur" ∉ events ∧ "onpointerdown" ∉ events ∧ "ontouchstart" ∉ events ∧ "oncontextmenu" ∉ events ∧ "onanimationstart" ∉ events := by
  decide +kernel

/-- **C72 (other spellings stay)**: links to scripts that begin with other characters that browsers take away, or with capitals, or with tabs or line
breaks inside. -/
theorem url_violated (u : List Nat) (hu : JsUrl u) (hs : ¬ Starts u) (ks : List (Node V)) :
    Danger (run true [.elem ⟨.svg, "a"⟩ [⟨.plain, "href", u⟩] ks]) := by
  simp only [run, if_true]
  have hl : ¬ Link ⟨.svg, "a"⟩ [⟨.plain, "href", u⟩] := by
    rintro ⟨_, a, ha, _, h⟩
    rw [List.mem_singleton] at ha
    subst ha
    exact hs h
  rw [visitAll, visit_elem _ _ _ (by decide) hl]
  have : ([⟨.plain, "href", u⟩] : List Attr).filter (fun a => !isEvent a) = [⟨.plain, "href", u⟩] := by
    rw [List.filter_eq_self]
    intro a ha
    rw [List.mem_singleton] at ha
    subst ha
    simp only [Bool.not_eq_true', Bool.eq_false_iff, ne_eq, isEvent_iff]
    exact href_not_event ⟨rfl, .inl rfl⟩
  rw [this]
  exact .link (.here List.mem_cons_self) List.mem_cons_self ⟨rfl, .inl rfl⟩ hu

/-- Such spellings. -/
theorem url_spellings : (JsUrl (lit "JavaScript:f()") ∧ ¬ Starts (lit "JavaScript:f()")) ∧ (JsUrl (lit "java\tscript:f()") ∧ ¬ Starts (lit "java\tscript:f()")) ∧
    (JsUrl (1 :: lit "javascript:f()") ∧ ¬ Starts (1 :: lit "javascript:f()")) := by
  have hns : ∀ u : List Nat, isJs u = false → ¬ Starts u := fun u h hs => by
    rw [(isJs_iff u).2 hs] at h
    cases h
  refine ⟨⟨⟨[], lit "JavaScript:f()", rfl, (fun _ h => by cases h), ?_⟩, hns _ (by decide +kernel)⟩,
    ⟨⟨[], lit "java\tscript:f()", rfl, (fun _ h => by cases h), ?_⟩, hns _ (by decide +kernel)⟩,
    ⟨⟨[1], lit "javascript:f()", rfl, (fun c h => by rw [List.mem_singleton] at h; omega), ?_⟩, hns _ (by decide +kernel)⟩⟩
  · exact .char 74 <| .char 97 <| .char 118 <| .char 97 <| .char 83 <| .char 99 <| .char 114 <| .char 105 <| .char 112 <| .char 116 <| .char 58 <| .done _
  · exact .char 106 <| .char 97 <| .char 118 <| .char 97 <| .skip 9 (by decide) <| .char 115 <| .char 99 <| .char 114 <| .char 105 <| .char 112 <| .char 116 <|
      .char 58 <| .done _
  · exact .char 106 <| .char 97 <| .char 118 <| .char 97 <| .char 115 <| .char 99 <| .char 114 <| .char 105 <| .char 112 <| .char 116 <| .char 58 <| .done _

/-- **C72 (the search does not look at XLink)**: jobs that leave documents with scripts alone change a document whose scripts are in `xlink:href`. -/
theorem search_violated (u : List Nat) (hu : Starts u) : Link ⟨.svg, "a"⟩ [⟨.xlink, "href", u⟩] ∧
    hasScripts [.elem ⟨.svg, "a"⟩ [⟨.xlink, "href", u⟩] ([] : List (Node V))] = false := by
  refine ⟨⟨rfl, _, List.mem_cons_self, ⟨rfl, .inr rfl⟩, hu⟩, ?_⟩
  simp [hasScripts, hasScript, attrScript, isEvent, script]

/-! ## Examples -/

private def js : Attr := ⟨.plain, "href", lit " javascript:f()"⟩
private def rect : Node Nat := .elem ⟨.svg, "rect"⟩ [] []

/-- A document with a script, an event, and a neat link to a script. -/
private def sample : List (Node Nat) :=
  [.elem ⟨.svg, "svg"⟩ [⟨.plain, "onload", lit "f()"⟩, ⟨.plain, "id", lit "a"⟩]
    [.elem ⟨.svg, "script"⟩ [] [.text 0], .elem ⟨.svg, "a"⟩ [js] [.text 1, rect, rect, .text 2], rect]]

example : run true sample = [.elem ⟨.svg, "svg"⟩ [⟨.plain, "id", lit "a"⟩] [rect, rect, rect]] := by rfl

example : hasScripts sample = true := by rfl

example : run true [.elem ⟨.svg, "g"⟩ [] [.elem ⟨.svg, "a"⟩ [js] [rect, .text 7, rect], rect, rect, rect]] = [.elem ⟨.svg, "g"⟩ [] [rect, .text 7]] := by rfl

/-- On the heap: node 1 of the root 0 is the link, with an element, a text, an element; node 2 follows it. -/
private def heap : Verif.Dom.Heap := ((((Verif.Dom.fresh.append 0 1).append 0 2).append 1 3).append 1 4).append 1 5

example : (((heap.retainChildren 9 1 fun c => !(c == 4)).bind fun g => g.flatten 9 1).map fun g => Verif.Bfs.childNodes 9 g 0) = some [3, 4] := by
  decide +kernel

example : (((heap.retainChildren 9 1 fun c => !(c == 5)).bind fun g => g.flatten 9 1).map fun g => Verif.Bfs.childNodes 9 g 0) = some [3, 4, 2] := by
  decide +kernel

end Verif.Scripts
