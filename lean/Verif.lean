import Verif.Trafo.Model
import Verif.Trafo.Props
import Verif.BBox.Model
import Verif.BBox.Props
import Verif.T1.Code
import Verif.T1.CodeProps
import Verif.Reader.Model
import Verif.Reader.Props
import Verif.Ascii85.Model
import Verif.Ascii85.Props
import Verif.T1.Pfb
import Verif.T1.PfbProps
import Verif.T1.Embed
import Verif.TeXFont.Tfm
import Verif.TeXFont.TfmProps
import Verif.TeXFont.Vf
import Verif.TeXFont.VfProps
import Verif.Dvi.Model
import Verif.Dvi.Spec
import Verif.Dvi.Props
import Verif.Dvi.Decode
import Verif.Dvi.DecodeProps
import Verif.Unit.Model
import Verif.Unit.Props
import Verif.Attr.Model
import Verif.Attr.Props
import Verif.Attr.Refine
import Verif.Tick.Model
import Verif.Tick.Props
import Verif.Tick.Float
import Verif.Parter.Model
import Verif.Parter.Props
import Verif.Parter.Log
import Verif.Parter.LogProps
import Verif.Axis.Model
import Verif.Axis.Fallback
import Verif.Axis.Props
import Verif.Axis.Rate
import Verif.Axis.RateProps
import Verif.Texter.Model
import Verif.Texter.DecimalProps
import Verif.Texter.DefaultProps
import Verif.Pdf.Model
import Verif.Pdf.Props
import Verif.Pdf.Form
import Verif.Pdf.Strings
import Verif.Canvas.Model
import Verif.Canvas.Spec
import Verif.Canvas.PsProps
import Verif.Canvas.PdfProps
import Verif.Canvas.BoxProps
import Verif.Canvas.Svg
import Verif.Canvas.SvgProps
import Verif.Canvas.Pattern
import Verif.Canvas.Draw
import Verif.Canvas.Ghostscript
import Verif.Layer.Model
import Verif.Layer.Props
import Verif.Page.Model
import Verif.Page.Props
import Verif.Document.Output
import Verif.Document.PSFile
import Verif.Document.PSFileRead
import Verif.Document.PSFileProps
import Verif.Document.PSFileMore
import Verif.Color.Model
import Verif.Color.Props
import Verif.Color.HexProps
import Verif.Color.GradientProps
import Verif.NormPath.Item
import Verif.NormPath.ItemProps
import Verif.NormPath.Intersect
import Verif.NormPath.Arclen
import Verif.NormPath.Sub
import Verif.NormPath.SubProps
import Verif.NormPath.Segments
import Verif.NormPath.SegProps
import Verif.NormPath.History
import Verif.NormPath.Split
import Verif.NormPath.Polyline
import Verif.NormPath.ArclenParam
import Verif.NormPath.SubLen
import Verif.NormPath.ParamLen
import Verif.NormPath.Objects
import Verif.Deco.Exclude
import Verif.Deco.Arrow
import Verif.Deco.Text
import Verif.Roots.Model
import Verif.Roots.Props
import Verif.Bitmap.Model
import Verif.Bitmap.Props
import Verif.Bitmap.Colors
import Verif.Mesh.Model
import Verif.Mesh.Props
import Verif.Mesh.Output
import Verif.Util.Dict
import Verif.Util.Kwsplit
import Verif.Data.Text
import Verif.Data.Styles
import Verif.Data.Points
import Verif.Data.File
import Verif.Data.Conf
import Verif.Data.Function
import Verif.Data.Derive
import Verif.Path.Arc
import Verif.Path.Model
import Verif.Path.Spec
import Verif.Path.RelProps
import Verif.Path.PdfProps
import Verif.Path.SvgProps
import Verif.Path.ArctProps
import Verif.Path.BBoxProps
import Verif.Box.Model
import Verif.Box.Align
import Verif.Box.Line
import Verif.Box.Circle
import Verif.Box.Props
import Verif.Box.Lists
import Verif.Box.Equal
import Verif.Connector.Model
import Verif.Connector.Arc
import Verif.Connector.ArcProps
import Verif.Connector.Props
import Verif.MapFile.Model
import Verif.MapFile.Props
import Verif.Config.Model
import Verif.Config.Props
import Verif.Config.Extension
import Verif.MapFile.Fonts
import Verif.MapFile.Comment
import Verif.Config.Values
import Verif.Bitmap.Output
import Verif.Bitmap.PngProps
import Verif.Bitmap.OutputProps
import Verif.T1.StripProps
import Verif.T1.Data2Props
import Verif.T1.Path
import Verif.T1.GlyphSpec
import Verif.T1.PathProps
import Verif.MetaPost.Props
import Verif.MetaPost.CurveProps
import Verif.MetaPost.PathProps
import Verif.MetaPost.PathSmooth
import Verif.MetaPost.PathTangent
import Verif.Eps.Props
import Verif.Eps.Calls
import Verif.Path.EndProps
import Verif.Path.ArcnEnds
import Verif.Svg.PathData
import Verif.Svg.PathProps
import Verif.Svg.Number
import Verif.Svg.NumberProps
import Verif.Svg.Transform
import Verif.Svg.Place
import Verif.Svg.EllArc
import Verif.Svg.Shapes
import Verif.Svg.Paint
import Verif.Svg.Tree
import Verif.Style.Line
import Verif.Style.LineProps
import Verif.Style.ErrorBar
import Verif.Style.Histogram
import Verif.Style.HistogramProps
import Verif.Graph.ProjectorProps
import Verif.Style.BarProps
import Verif.Graph.Bar3
import Verif.Graph.GraphXY
import Verif.Graph.GraphXYProps
import Verif.Graph.Key
import Verif.Graph.PlotItem
import Verif.Graph.PlotItemProps
import Verif.Graph.Steps
import Verif.Graph.StepsProps
import Verif.Style.Columns
import Verif.Style.ColumnsProps
import Verif.Style.Grid
import Verif.Style.GridProps
import Verif.Style.Surface
import Verif.Style.SurfaceProps
import Verif.Axis.Paint
import Verif.Axis.PaintProps
import Verif.Axis.BarPaint
import Verif.Util.Configured
import Verif.Axis.Create
import Verif.Axis.CreateProps
import Verif.Axis.CreateBest
import Verif.Axis.Layout
import Verif.Axis.Anchored
import Verif.Deform.Corner
import Verif.Deform.Rebuild
import Verif.Deform.Continue
import Verif.Deform.CornerProps
import Verif.Deform.ArmsProps
import Verif.Deform.CornerPath
import Verif.Deform.Cycloid
import Verif.Deform.LineSmooth
import Verif.Deform.Parallel
import Verif.Deform.Param
import Verif.Deform.ParallelCurve
import Verif.Text.Message
import Verif.Text.MessageProps
import Verif.Text.MessageLoad
import Verif.Text.Engine
import Verif.Text.EngineMsg
import Verif.Text.EngineProps
import Verif.Text.EngineMulti
import Verif.Font.T1TextProps
import Verif.Text.AttrsProps
import Verif.Text.Unicode
import Verif.Text.UseFiles
import Verif.Style.PointsProps
import Verif.Font.AfmProps
import Verif.Font.AfmSecond
import Verif.Font.PfmProps
import Verif.Font.EncodingStrip
import Verif.Font.EncodingWritten
import Verif.Text.MonitorMore
import Verif.Text.Boxes
import Verif.Text.Default
import Verif.NormPath.CrossCases
import Verif.NormPath.SubCross
import Verif.NormPath.SubCrossProps
import Verif.NormPath.SubCrossTwice
import Verif.NormPath.SubCrossTotal
import Verif.NormPath.SubCrossMixed
import Verif.Axis.Along
import Verif.Style.ChangeBar
import Verif.Svg.Write
import Verif.Svg.WriteProps
import Verif.Axis.Time
import Verif.Graph.CbdFile
import Verif.Pdf.File
import Verif.Pdf.FileRead
import Verif.Pdf.FileProps
import Verif.Pdf.FileMain
import Verif.Pdf.WriterOptions
import Verif.Deco.Brace
import Verif.Deco.BraceProps
import Verif.Dvi.Special
import Verif.Dvi.SpecialProps
import Verif.Dvi.SpecialColor
import Verif.Dvi.File
import Verif.Deco.Gradient
import Verif.Deco.GradientAll
import Verif.Deco.Show
import Verif.Canvas.Update
import Verif.Path.NormOutput
import Verif.TeXFont.TfmFile
import Verif.TeXFont.TfmFileProps
import Verif.TeXFont.TextBox
import Verif.NormPath.Positions
