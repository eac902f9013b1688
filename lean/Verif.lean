import Verif.Basic
import Verif.Spec
import Verif.Network.Group
import Verif.Network.GroupLemmas
import Verif.Network.GroupProps
import Verif.Matching.Model
import Verif.Matching.Lemmas
import Verif.Matching.Props
import Verif.Tracking.Props
import Verif.Tracking.SelectProps
import Verif.Tracking.ResumeProps
import Verif.Tracking.Default
import Verif.Compare.Props
import Verif.Index.Props
import Verif.Py
import Verif.Tracks.Props
import Verif.Smooth.Props
import Verif.Missing.Props
import Verif.Segments.Relatives
import Verif.Links.Find
import Verif.Segmentation.Network
import Verif.Buffer.Props
import Verif.Filters.Props
import Verif.Bins.Align
import Verif.Boxes.Props
import Verif.Poly.Hull
import Verif.Poly.VisvalingamProps
import Verif.Poly.Indexs
import Verif.Lines.Flat
import Verif.Lines.Simplify
import Verif.Lines.Wrap
import Verif.Lines.Window
import Verif.Targets.Props
import Verif.Identify.Props
import Verif.Amplitude.Props
import Verif.Detection.Props
import Verif.Detection.Nearest
import Verif.Advect.Props
import Verif.Advect.Cell
import Verif.Advect.Time
import Verif.Advect.Filament
import Verif.Stencil.Props
import Verif.PixelPath
import Verif.Pixels.Props
import Verif.Pixels.Count
import Verif.Events.Props
import Verif.Events.Follow
import Verif.Events.Numbering
import Verif.Events.Correct
import Verif.Match.Props
import Verif.Match.Close
import Verif.Match.Contain
import Verif.Poly.Area
import Verif.Poly.Mesh
import Verif.Interp.Props
import Verif.Convolve.Props
import Verif.Runs.Props
import Verif.Extract.Props
import Verif.Store.Props
import Verif.Fields.Props
import Verif.Grouping.Props
import Verif.Select.Props
import Verif.Particles.Props
import Verif.Sphere.Props
import Verif.Circle.Props
import Verif.Ellipse.Props
import Verif.Resample.Props
import Verif.Trackers.Area
import Verif.Trackers.Default
import Verif.Trackers.Chelton
import Verif.Coords.Props
import Verif.Collect.Props
import Verif.Seam.Props
import Verif.Seam.Select
import Verif.Around.Props
import Verif.Stats.Props
import Verif.App.Props
import Verif.App.Files
import Verif.Ring.Props
import Verif.Geos.Props
import Verif.GridFile.Props
import Verif.GridFile.Write
import Verif.Kernels.Props
import Verif.Kernels.Wrong
import Verif.Subset.Props
import Verif.Whole.Props
import Verif.Names.Props
import Verif.Advect.Unsteady
import Verif.Amplitude.Sharp
import Verif.Boxes.Sharp
import Verif.Compare.Sharp
import Verif.Unregular.Props
import Verif.Tools.Props
import Verif.Speed.Props
import Verif.GridFile.Tiles
import Verif.Circle.EqualArea
import Verif.Events.Several
import Verif.Bins.Maps
import Verif.GridFile.Memory
import Verif.Particles.Window
import Verif.Events.Marks
import Verif.Particles.Analysis
import Verif.Tracking.Drift
import Verif.Smooth.Position
import Verif.Spectrum.Props
import Verif.Tracking.JointProps
import Verif.Tracks.Direction
import Verif.Tracks.Box
import Verif.Tracks.SubSetter
import Verif.Tracks.Azimuth
import Verif.Tracks.Iter
import Verif.Fields.Load
import Verif.Pixels.Stat
import Verif.Segments.Count
import Verif.Store.Translate
import Verif.Fields.Equal
import Verif.Tracking.Final
import Verif.Dates.Identify
import Verif.Segments.FindRelative
import Verif.App.EddyId
import Verif.Identify.Compare
import Verif.Boxes.Range
import Verif.Links.Light
import Verif.App.Anim
import Verif.App.Gui
import Verif.Segmentation.Time
import Verif.App.PathCache
import Verif.Dates.Day
import Verif.App.Options
import Verif.Tracking.FillRaw
import Verif.Store.Units
import Verif.Ring.AddCircle
import Verif.GridFile.Heights
import Verif.Tracks.MaskReuse
import Verif.Lines.Filled
import Verif.Events.Timeline
import Verif.Events.Edges
import Verif.Store.Version
import Verif.Tracks.Report
import Verif.Lines.Paths
import Verif.Lines.Display
import Verif.Matching.Local
import Verif.Trackers.Local
import Verif.Links.Compose
import Verif.Trackers.Turn
import Verif.Trackers.Symmetry
import Verif.Tracks.Steps
import Verif.Segmentation.Local
import Verif.Tracks.Compose
import Verif.Advect.Turn
import Verif.Circle.Start
import Verif.Trackers.AreaLocal
import Verif.Pixels.Merge
import Verif.Grouping.Local
import Verif.Events.Again
import Verif.Tracking.Relate
import Verif.Trackers.Run
import Verif.Trackers.Moved
import Verif.Missing.Again
import Verif.Stats.Merge
import Verif.Fields.Linear
import Verif.Tracking.Region
import Verif.Trackers.Region
import Verif.Matching.Chelton
import Verif.Trackers.CheltonLocal
import Verif.Tracking.Order
import Verif.Trackers.Order
import Verif.Tracking.OrderMerge
import Verif.Trackers.OrderMerge
import Verif.Tracking.OrderFinal
import Verif.Trackers.OrderFinal
import Verif.Tracking.OrderFilled
import Verif.Trackers.OrderFilled
import Verif.Spectrum.Units
import Verif.Spectrum.Order
import Verif.Smooth.Units
import Verif.Stats.Resample
import Verif.Stencil.Mirror
import Verif.Geos.Mirror
import Verif.Geos.Sum
