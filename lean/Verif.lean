import Verif.Dom.Theorems
import Verif.Dom.Theorems2
import Verif.Dom.Style
import Verif.Dom.XmlTheorems
import Verif.Pdf.ObjectTheorems
import Verif.Pdf.FileTheorems
import Verif.Pdf.ToUnicodeTheorems
import Verif.Pdf.DocTheorems
import Verif.Pdf.DocExample
import Verif.Pdf.SinkTheorems
import Verif.Font.ParseTheorems
import Verif.Text.PlainTheorems
import Verif.Style.BlockTheorems
import Verif.Style.CascadeTheorems
import Verif.Style.SelectorTheorems
import Verif.Style.Matching
import Verif.Style.MatchingSpec
import Verif.Style.MatchingLemmas
import Verif.Style.MatchingTheorems
import Verif.Layout.GeomTheorems
import Verif.Layout.CornerTheorems
import Verif.Layout.ConstructTheorems
import Verif.Layout.DocumentTheorems
import Verif.Layout.PaintTheorems
import Verif.Layout.ShownTheorems
import Verif.Layout.FontUse
import Verif.Layout.CopySpec
import Verif.Layout.CopyTheorems
import Verif.Lester.PagesTheorems
import Verif.Lester.PngTheorems
import Verif.Lester.SurfaceTheorems
import Verif.Style.ValueTheorems
import Verif.Style.UserAgentTheorems
import Verif.Macros.DeriveTheorems
import Verif.Macros.UnionTheorems
import Verif.Layout.SlotsTheorems
import Verif.Font.VeraData
import Verif.Font.Vera
import Verif.Font.VeraTheorems
import Verif.Layout.BuiltInTheorems
import Verif.Layout.PlainSpec
import Verif.Layout.PlainTheorems
import Verif.Layout.LookSpec
import Verif.Layout.LookTheorems
import Verif.Layout.RowSpec
import Verif.Layout.RowTheorems
import Verif.Layout.StaticSpec
import Verif.Layout.StaticLemmas
import Verif.Layout.StaticTheorems
import Verif.Layout.GroundSpec
import Verif.Layout.GroundBoxes
import Verif.Layout.GroundLemmas
import Verif.Layout.GroundTheorems
import Verif.Layout.MarkSpec
import Verif.Layout.MarkLemmas
import Verif.Layout.MarkTheorems
import Verif.Style.OrderTheorems
import Verif.Layout.OrderTheorems
import Verif.Layout.ReadSpec
import Verif.Layout.ReadLemmas
import Verif.Layout.ReadTheorems
import Verif.Layout.BoundSpec
import Verif.Layout.BoundLemmas
import Verif.Layout.BoundTheorems
import Verif.Layout.PageTheorems
import Verif.Lester.OwnerSpec
import Verif.Lester.Owner
import Verif.Lester.OwnerTheorems
import Verif.Layout.NestSpec
import Verif.Layout.NestLemmas
import Verif.Layout.NestTheorems
import Verif.Layout.WrapSpec
import Verif.Layout.WrapInline
import Verif.Layout.WrapPlace
import Verif.Layout.WrapLayout
import Verif.Layout.WrapSim
import Verif.Layout.WrapConstruct
import Verif.Layout.WrapBuild
import Verif.Layout.WrapMain
import Verif.Layout.WrapTheorems
import Verif.Layout.BeforeSpec
import Verif.Layout.BeforeLemmas
import Verif.Layout.BeforeTheorems
import Verif.Lester.ImageSpec
import Verif.Lester.ImageTheorems
import Verif.Layout.IndentSpec
import Verif.Layout.IndentTheorems
import Verif.Layout.ZoomSpec
import Verif.Layout.ZoomLemmas
import Verif.Layout.ZoomTheorems
import Verif.Layout.TwinInline
import Verif.Layout.TwinLines
import Verif.Layout.TwinText
import Verif.Layout.TwinBegin
import Verif.Layout.TwinBuild
import Verif.Layout.TwinParts
import Verif.Layout.AnywhereTheorems
import Verif.Layout.RoomSpec
import Verif.Layout.RoomTheorems
import Verif.Layout.AfterSpec
import Verif.Layout.AfterLemmas
import Verif.Layout.AfterTheorems
import Verif.Layout.AsideSpec
import Verif.Layout.AsidePending
import Verif.Layout.AsideLayout
import Verif.Layout.AsideBuild
import Verif.Layout.AsideVoid
import Verif.Layout.AsideHollow
import Verif.Layout.AsideTheorems
import Verif.Style.LastTheorems
import Verif.Layout.LastTheorems
import Verif.Layout.DyeLemmas
import Verif.Layout.DyeBuild
import Verif.Layout.RecolorSpec
import Verif.Layout.ShowsSpec
import Verif.Layout.RecolorTheorems
import Verif.Layout.DissolveSpec
import Verif.Layout.DissolveTheorems
import Verif.Macros.Convert
import Verif.Macros.ConvertTheorems
import Verif.Layout.AsideMoves
import Verif.Layout.CollapseSpec
import Verif.Layout.CollapseNorm
import Verif.Layout.CollapseLemmas
import Verif.Layout.CollapseKinds
import Verif.Layout.CollapseFacts
import Verif.Layout.CollapsePlaces
import Verif.Layout.CollapseOutline
import Verif.Layout.CollapseTheorems
import Verif.Layout.CollapseAsides
import Verif.Layout.ApplySpec
import Verif.Layout.FitsBuild
import Verif.Layout.ApplyBoxes
import Verif.Layout.ApplyTheorems
import Verif.Layout.MoveSpec
import Verif.Layout.MoveTheorems
import Verif.Layout.FitSpec
import Verif.Layout.FitBoxes
import Verif.Layout.FitLemmas
import Verif.Layout.FitTheorems
import Verif.Layout.Program
import Verif.Layout.ProgramTheorems
import Verif.Font.Dates
import Verif.Text.Machine
import Verif.Text.MachineSpec
import Verif.Text.MachineLemmas
import Verif.Text.MachineTheorems
import Verif.Layout.Machine
import Verif.Layout.MachineFlow
import Verif.Layout.MachineTotal
import Verif.Layout.MachineSpec
import Verif.Layout.MachineShown
import Verif.Layout.MachinePaint
import Verif.Layout.MachinePage
import Verif.Layout.MachineExact
import Verif.Layout.MachineTheorems
import Verif.Float.Single
import Verif.Float.SingleTheorems
import Verif.Float.SingleOrder
import Verif.Float.SingleRound
import Verif.Pdf.SingleFloats
import Verif.Text.SingleSpec
import Verif.Text.SingleTheorems
import Verif.Layout.SingleTheorems
import Verif.Font.Thousandths
import Verif.Font.ThousandthsTheorems
import Verif.Layout.WidthTheorems
import Verif.Float.SingleError
import Verif.Float.SingleBounds
import Verif.Pdf.ColorTheorems
import Verif.Layout.ColorTheorems
import Verif.Layout.MachineGround
import Verif.Layout.MachineGroundTheorems
import Verif.Pdf.ReaderAgree
import Verif.Pdf.PrintedSpec
import Verif.Pdf.PrintedLemmas
import Verif.Pdf.PrintedTheorems
import Verif.Pdf.DecimalReal
import Verif.Layout.PrintedTheorems
import Verif.Text.SingleFile
import Verif.Text.JustifySpec
import Verif.Text.SingleJustify
import Verif.Text.JustifyTheorems
import Verif.Text.PlacesSpec
import Verif.Text.PlacesTheorems
import Verif.Pdf.ReaderFuel
import Verif.Pdf.Dtoa
import Verif.Pdf.DtoaTheorems
import Verif.Layout.DtoaTheorems
import Verif.Layout.LinesSpec
import Verif.Layout.MachineLines
import Verif.Layout.SingleLines
import Verif.Layout.LinesTheorems
import Verif.Layout.SingleTops
import Verif.Layout.WholeSpec
import Verif.Layout.WholeLemmas
import Verif.Layout.WholeFlow
import Verif.Layout.WholeTheorems
import Verif.Layout.WholePageSpec
import Verif.Layout.WholeLow
import Verif.Layout.WholePage
import Verif.Layout.WholePageTheorems
import Verif.Layout.RowsSpec
import Verif.Layout.RowsText
import Verif.Layout.RowsInline
import Verif.Layout.RowsFlow
import Verif.Layout.RowsTheorems
import Verif.Layout.RowsPageSpec
import Verif.Layout.RowsPage
import Verif.Layout.RowsPageTheorems
import Verif.Layout.ColumnsSpec
import Verif.Layout.ColumnsNumbers
import Verif.Layout.ColumnsInline
import Verif.Layout.ColumnsFlow
import Verif.Layout.ColumnsTheorems
import Verif.Layout.ColumnsStatic
import Verif.Layout.ColumnsPageSpec
import Verif.Layout.ColumnsPage
import Verif.Layout.ColumnsPageTheorems
import Verif.Layout.ColumnsPageStatic
