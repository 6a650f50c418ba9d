import Verif.Jsx.Preset

/-! # Property C86: the elements of React Native -/

namespace Verif.Jsx

/-- The components of `react-native-svg` that stand for elements of SVG. -/
def nativeComponents : List String :=
  ["Circle", "ClipPath", "Defs", "Ellipse", "ForeignObject", "G", "Image", "Line", "LinearGradient", "Mask", "Path", "Pattern",
    "Polygon", "Polyline", "RadialGradient", "Rect", "Stop", "Svg", "Symbol", "TSpan", "Text", "TextPath", "Use"]

/-- **C86 (names)** The component of an element is the one that has its name but for the case of its letters; an element
without such a component has none. -/
theorem nativeName_iff (n m : String) : nativeName n = some m ↔
    m ∈ nativeComponents ∧ (n, m) ∈ [("svg", "Svg"), ("g", "G"), ("tspan", "TSpan")] ++
      (nativeComponents.filter fun m => m ∉ ["Svg", "G", "TSpan"]).map fun m => (m.decapitalize, m) := by
  have key : ∀ r ∈ nativeNames, nativeName r.1 = some r.2 ∧ r.2 ∈ nativeComponents ∧
      r ∈ [("svg", "Svg"), ("g", "G"), ("tspan", "TSpan")] ++
      (nativeComponents.filter fun m => m ∉ ["Svg", "G", "TSpan"]).map fun m => (m.decapitalize, m) := by decide +kernel
  have back : ∀ r ∈ [("svg", "Svg"), ("g", "G"), ("tspan", "TSpan")] ++
      (nativeComponents.filter fun m => m ∉ ["Svg", "G", "TSpan"]).map (fun m => (m.decapitalize, m)), nativeName r.1 = some r.2 := by
    decide +kernel
  constructor
  · intro h
    simp only [nativeName, Option.map_eq_some_iff] at h
    obtain ⟨r, hr, rfl⟩ := h
    have hm := List.mem_of_find?_eq_some hr
    have he : r.1 = n := by simpa using List.find?_some hr
    have := key r hm
    rw [← he]
    exact ⟨this.2.1, this.2.2⟩
  · intro h
    exact back (n, m) h.2

mutual
/-- **C86 (only components)** Every element that is left is a component of React Native. -/
theorem toNative_components (j j' : Jsx) (h : toNative j = some j') : ∀ n ∈ names j', n ∈ nativeComponents := by
  cases j with
  | elem n as sc cl ks =>
    simp only [toNative] at h
    split at h
    · simp at h
    · rename_i m hm
      simp only [Option.some.injEq] at h
      subst h
      intro x hx
      simp only [names, List.mem_cons] at hx
      rcases hx with rfl | hx
      · exact ((nativeName_iff _ _).mp hm).1
      · exact toNatives_components ks x hx
  | frag ks =>
    simp only [toNative, Option.some.injEq] at h
    subst h
    intro x hx
    exact toNatives_components ks x (by simpa [names] using hx)
  | _ =>
    simp only [toNative, Option.some.injEq] at h
    subst h
    simp [names]
theorem toNatives_components (js : List Jsx) : ∀ n ∈ namess (toNatives js), n ∈ nativeComponents := by
  cases js with
  | nil => simp [toNatives, namess]
  | cons j js =>
    simp only [toNatives]
    split
    · rename_i j' hj
      intro x hx
      simp only [namess, List.mem_append] at hx
      rcases hx with hx | hx
      · exact toNative_components j j' hj x hx
      · exact toNatives_components js x hx
    · exact toNatives_components js
end

/-- **C86 (an example)** -/
example : toNative (.elem "g" [] false (some "g") [.elem "style" [] true none [], .elem "tspan" [] true none []]) =
    some (.elem "G" [] false (some "G") [.elem "TSpan" [] true none []]) := by
  simp [toNative, toNatives, nativeName, nativeNames]

end Verif.Jsx
