import Verif.IdGen.Props
import Verif.IdGen.Complete
import Verif.Escape.Props
import Verif.LineCol.Props
import Verif.Jobs.Props
import Verif.Jobs.SvgoProps
import Verif.Names.Props
import Verif.Attrs.Props
import Verif.Attrs.SortProps
import Verif.ClassList.Props
import Verif.Dom.IterProps
import Verif.Arena.History
import Verif.Bfs.Props
import Verif.Parse.Props
import Verif.Number.Props
import Verif.Path.FormatProps
import Verif.ListOf.Props
import Verif.PrefixIds.Props
import Verif.CleanupIds.Props
import Verif.Actions.CodecProps
import Verif.Actions.StateProps
import Verif.Actions.TreeProps
import Verif.Actions.Class
import Verif.Segment.Model
import Verif.Segment.Spec
import Verif.Segment.Props
import Verif.Segment.ToSvg
import Verif.Segment.ToSpec
import Verif.Segment.ToProps
import Verif.Simplify.Model
import Verif.Simplify.Spec
import Verif.Simplify.Lemmas
import Verif.Simplify.Props
import Verif.Simplify.Join
import Verif.Simplify.Straight
import Verif.Simplify.Options
import Verif.Tree.Lemmas
import Verif.Removal.Props
import Verif.UnusedNs.Props
import Verif.MoveAttrs.Reuse
import Verif.Xml.Props
import Verif.Build.Props
import Verif.Namespaces.Props
import Verif.Cascade.Props
import Verif.Transform.Violations
import Verif.Apply.Limits
import Verif.Shapes.Limits
import Verif.Empty.Text
import Verif.Collapse.Limits
import Verif.Removal.MoreProps
import Verif.Values.Model
import Verif.Values.Spec
import Verif.Values.Lemmas
import Verif.Values.Props
import Verif.MergePaths.Model
import Verif.MergePaths.Spec
import Verif.MergePaths.Lemmas
import Verif.MergePaths.Runs
import Verif.MergePaths.Props
import Verif.MergePaths.Limits
import Verif.Stroke.Model
import Verif.Stroke.Spec
import Verif.Stroke.Round
import Verif.Stroke.Lemmas
import Verif.Stroke.Props
import Verif.Stroke.Limits
import Verif.Viewport.Model
import Verif.Viewport.Spec
import Verif.Viewport.Lemmas
import Verif.Viewport.Props
import Verif.Viewport.Dims
import Verif.Viewport.Limits
import Verif.Unknowns.Tables
import Verif.Unknowns.Model
import Verif.Unknowns.Spec
import Verif.Unknowns.Lemmas
import Verif.Unknowns.Styles
import Verif.Unknowns.Props
import Verif.Unknowns.Limits
import Verif.Retain.Tables
import Verif.Retain.Model
import Verif.Retain.Spec
import Verif.Retain.Lemmas
import Verif.Retain.Props
import Verif.Retain.Limits
import Verif.Unpainted.Model
import Verif.Unpainted.Spec
import Verif.Unpainted.Lemmas
import Verif.Unpainted.Props
import Verif.Unpainted.Limits
import Verif.Hidden.Model
import Verif.Hidden.Spec
import Verif.Hidden.Lemmas
import Verif.Hidden.Props
import Verif.Hidden.Limits
import Verif.Merge.Model
import Verif.Merge.Spec
import Verif.Merge.Props
import Verif.Merge.Limits
import Verif.Inline.Model
import Verif.Inline.Spec
import Verif.Inline.Lemmas
import Verif.Inline.Props
import Verif.Inline.Result
import Verif.Inline.Limits
import Verif.Minify.Props
import Verif.Minify.Limits
import Verif.SortDefs.Props
import Verif.SortDefs.Limits
import Verif.CleanAttrs.Props
import Verif.CleanAttrs.Limits
import Verif.Gjk.Props
import Verif.Gjk.Arc
import Verif.Gjk.Limits
import Verif.ArcTo.Back
import Verif.ArcTo.Limits
import Verif.MergePaths.Test
import Verif.MergePaths.TestLimits
import Verif.Canvas.Model
import Verif.Canvas.Spec
import Verif.Canvas.Lemmas
import Verif.Canvas.Props
import Verif.Canvas.Beyond
import Verif.Canvas.Limits
import Verif.Xlink.Model
import Verif.Xlink.Spec
import Verif.Xlink.Lemmas
import Verif.Xlink.Props
import Verif.Xlink.Foreign
import Verif.Xlink.Limits
import Verif.Walk.Model
import Verif.Walk.Props
import Verif.Walk.Limits
import Verif.Select.Model
import Verif.Select.Spec
import Verif.Select.Lemmas
import Verif.Select.Props
import Verif.Select.Limits
import Verif.StyleAttr.Model
import Verif.StyleAttr.Spec
import Verif.StyleAttr.Props
import Verif.StyleAttr.Limits
import Verif.RemoveAttrs.Model
import Verif.RemoveAttrs.Spec
import Verif.RemoveAttrs.Props
import Verif.RemoveAttrs.Limits
import Verif.Background.Model
import Verif.Background.Spec
import Verif.Background.Props
import Verif.Background.Limits
import Verif.Colors.Model
import Verif.Colors.Spec
import Verif.Colors.Props
import Verif.Colors.Limits
import Verif.Scripts.Model
import Verif.Scripts.Spec
import Verif.Scripts.Props
import Verif.Scripts.Heap
import Verif.Scripts.Limits
import Verif.Precheck.Model
import Verif.Precheck.Props
import Verif.Precheck.Limits
import Verif.RootAttrs.Model
import Verif.RootAttrs.Props
import Verif.RootAttrs.Limits
import Verif.Gradients.Model
import Verif.Gradients.Spec
import Verif.Gradients.Lemmas
import Verif.Gradients.Walk
import Verif.Gradients.Props
import Verif.Gradients.Limits
import Verif.Fit.Model
import Verif.Fit.Spec
import Verif.Fit.Lemmas
import Verif.Fit.Props
import Verif.Fit.Exact
import Verif.Fit.Limits
import Verif.Curves.Model
import Verif.Curves.Spec
import Verif.Curves.Props
import Verif.Curves.Coords
import Verif.Curves.Limits
import Verif.Arcs.Model
import Verif.Arcs.Props
import Verif.Arcs.Coords
import Verif.Arcs.Limits
import Verif.Overlay.Model
import Verif.Overlay.Spec
import Verif.Overlay.Props
import Verif.Overlay.Whole
import Verif.Overlay.Limits
import Verif.Lint.Model
import Verif.Lint.Spec
import Verif.Lint.Lemmas
import Verif.Lint.Props
import Verif.Lint.Source
import Verif.Lint.Limits
import Verif.Report.Model
import Verif.Report.Props
import Verif.Check.Model
import Verif.Check.Props
import Verif.Reuse.Model
import Verif.Reuse.Spec
import Verif.Reuse.Props
import Verif.Reuse.Image
import Verif.Reuse.Collect
import Verif.Reuse.Groups
import Verif.Reuse.Whole
import Verif.Reuse.Main
import Verif.Reuse.Shape
import Verif.Reuse.Limits
import Verif.Jsx.Table
import Verif.Jsx.Model
import Verif.Jsx.Spec
import Verif.Jsx.Facts
import Verif.Jsx.Names
import Verif.Jsx.Props
import Verif.Jsx.Limits
import Verif.Jsx.Preset
import Verif.Jsx.Vars
import Verif.Jsx.Scope
import Verif.Jsx.Closed
import Verif.Jsx.Modules
import Verif.Jsx.Render
import Verif.Clock.Model
import Verif.Clock.Spec
import Verif.Clock.Lemmas
import Verif.Clock.Text
import Verif.Clock.Props
import Verif.Clock.Fails
import Verif.Clock.Begin
import Verif.Clock.Kept
import Verif.Clock.Limits
import Verif.Jsx.Native
import Verif.BySelector.Model
import Verif.BySelector.Clean
import Verif.BySelector.Props
import Verif.BySelector.Limits
import Verif.Sink.Model
import Verif.Sink.Spec
import Verif.Sink.Props
import Verif.Sink.Exact
import Verif.Sink.Limits
import Verif.Jsx.Tags
import Verif.Keywords.Tables
import Verif.Keywords.Model
import Verif.Keywords.Lemmas
import Verif.Keywords.Spec
import Verif.Keywords.Props
import Verif.Keywords.Font
import Verif.Keywords.Limits
import Verif.Rules.Model
import Verif.Rules.Props
import Verif.Rules.Limits
import Verif.Boxes.Model
import Verif.Boxes.Spec
import Verif.Boxes.Lemmas
import Verif.Boxes.Props
import Verif.Boxes.Limits
import Verif.Boxes.Sound
import Verif.Choice.Model
import Verif.Choice.Spec
import Verif.Choice.Props
import Verif.Choice.Sound
import Verif.Words.Model
import Verif.Words.Spec
import Verif.Words.Props
import Verif.Words.Main
import Verif.Words.More
import Verif.Moves.Model
import Verif.Moves.Spec
import Verif.Moves.Lemmas
import Verif.Moves.Props
import Verif.Moves.Limits
import Verif.Moves.Sound
import Verif.Shared.Model
import Verif.Shared.Lemmas
import Verif.Shared.Props
import Verif.Choice.Limit
import Verif.Choice.Closed
import Verif.Points.Model
import Verif.Points.Lemmas
import Verif.Points.Props
import Verif.Edit.Model
import Verif.Edit.Props
