import Verif.MergePaths.Test
import Verif.MergePaths.Limits

/-! # The test for intersections: examples -/

namespace Verif.MergePaths

open Verif.Segment Verif.Gjk

theorem fromSvg_line (tol x y : Rat) : ∃ z, fromSvg tol (line x y) = some [⟨⟨0, y⟩, [.lineTo ⟨x, y⟩], z⟩] := by
  refine ⟨decide ((⟨0, y⟩ : Segment.Pt).dist2 ⟨x, y⟩ < tol * tol), ?_⟩
  simp [fromSvg, line, takeSegments, takeData, take, finishSegment, orEmpty, lastEnd, Data.endPoint]

/-- A line above another one does not intersect it. -/
theorem test_lines (tol : Rat) (x x' : Rat) {y y' : Rat} (h : y ≤ y') : test tol (line x y) (line x' y') = false := by
  obtain ⟨z, e⟩ := fromSvg_line tol x y
  obtain ⟨z', e'⟩ := fromSvg_line tol x' y'
  have hr : (y : ℝ) ≤ y' := Rat.cast_le.mpr h
  have : intersects ArcR.nest ([⟨⟨0, y⟩, [.lineTo ⟨x, y⟩], z⟩].map realSeg) ([⟨⟨0, y'⟩, [.lineTo ⟨x', y'⟩], z'⟩].map realSeg) = some false := by
    simp [intersects, nests, nest, realSeg, realList, realData, Data.nest, box, grow, clear, real, hr]
  simp only [test, e, e', this]
  rfl

/-- The hypothesis of the violations is met by the test of the job. -/
example : test (1 / 1000) (line 1 0) (line 1 5) = false ∧ test (1 / 1000) (line 10 0) (line 30 5) = false ∧ test (1 / 1000) (line 10 0) (line 10 1) = false :=
  ⟨test_lines _ _ _ (by norm_num), test_lines _ _ _ (by norm_num), test_lines _ _ _ (by norm_num)⟩

theorem good_line (x y : Rat) : Good (line x y) := by
  refine ⟨.inr ⟨⟨0, y⟩, _, .inl rfl⟩, ?_, ?_⟩
  · simp [line, SmoothOk, Cmd.continues, Cmd.bend, Cmd.plain]
  · intro u hu o ho
    simp [line, subpaths, act, draw, Op.stop] at hu
    subst hu
    simp at ho
    subst ho
    trivial

/-- Two lines become one path, which paints the same. -/
example : ∃ out, mergePaths false (test (1 / 1000)) (fun _ => .ok plainStyle) [lineEl 0 1 0 [], lineEl 1 1 5 []] = .ok out ∧ out.length = 1 ∧
    SamePicture Separate ([lineEl 0 1 0 [], lineEl 1 1 5 []].map thing) (out.map thing) := by
  have hm := merge_two 1 0 1 5 [] (by simp) (by simp) rfl (test (1 / 1000)) (test_lines _ _ _ (by norm_num)) (fun _ => .ok plainStyle) plainStyle rfl rfl
  have hk : ∀ e ∈ [lineEl 0 1 0 [], lineEl 1 1 5 []], ∃ n x y, e = lineEl n x y [] := by
    intro e he
    simp only [List.mem_cons, List.not_mem_nil, or_false] at he
    rcases he with rfl | rfl <;> exact ⟨_, _, _, rfl⟩
  refine ⟨_, hm, rfl, merge_picture_test (1 / 1000) _ _ ?_ ?_ hm⟩
  · intro e he
    obtain ⟨n, x, y, rfl⟩ := hk e he
    refine ⟨by simp [lineEl], fun c hc => ?_⟩
    simp only [lineEl, List.mem_cons, List.not_mem_nil, or_false, Attr.d.injEq] at hc
    rw [hc]
    exact (good_line x y).1
  · intro e he
    obtain ⟨n, x, y, rfl⟩ := hk e he
    intro c hc
    have : c = line x y := by simpa [El.data, lineEl] using hc.symm
    rw [this]
    exact good_line x y

end Verif.MergePaths
