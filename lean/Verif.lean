import Verif.Const
import Verif.Bytes
import Verif.Matrix
import Verif.Thread
import Verif.Stitch
import Verif.Encoder
import Verif.Props.Commands
import Verif.Props.MatrixProps
import Verif.Props.ThreadProps
import Verif.Props.EncoderProps
import Verif.Props.GapProps
import Verif.Props.PlanProps
import Verif.Quant
import Verif.Trims
import Verif.Dst
import Verif.Text
import Verif.DstHeader
import Verif.Props.QuantProps
import Verif.Props.TrimProps
import Verif.Props.DstProps
import Verif.Props.DstFileProps
import Verif.Props.DstHeaderProps
import Verif.Format
import Verif.Exp
import Verif.Jef
import Verif.Props.ExpProps
import Verif.Props.JefProps
import Verif.Pec
import Verif.PecGraphics
import Verif.Props.PecProps
import Verif.Props.PecGraphicsProps
import Verif.Pattern
import Verif.U01
import Verif.Props.NeedleProps
import Verif.Props.U01Props
import Verif.Tbf
import Verif.Props.BoundsProps
import Verif.Props.TbfProps
import Verif.Xxx
import Verif.Props.XxxProps
import Verif.Compress
import Verif.Blocks
import Verif.Ops
import Verif.Props.CompressProps
import Verif.Props.BlockProps
import Verif.Props.OpsProps
import Verif.Heap
import Verif.Props.HeapProps
import Verif.Vp3
import Verif.Props.Vp3Props
import Verif.Walk
import Verif.Props.StrikeProps
import Verif.Decimal
import Verif.Names
import Verif.ColorNames
import Verif.Csv
import Verif.Json
import Verif.ColorFiles
import Verif.Props.NamesProps
import Verif.Props.CsvProps
import Verif.Props.JsonProps
import Verif.Props.ColorFileProps
import Verif.Props.HeaderProps
import Verif.Props.TrimSpecProps
import Verif.Dispatch
import Verif.Props.DispatchProps
import Verif.Readers
import Verif.Props.ReaderProps
import Verif.Generic
import Verif.Props.GenericProps
import Verif.Png
import Verif.Props.PngProps
import Verif.Idempotent
import Verif.IdempotentPlan
import Verif.IdempotentRun
import Verif.Props.IdempotentProps
import Verif.Props.AddProps
import Verif.Props.ExpandProps
import Verif.DstRead
import Verif.Props.DstReadProps
import Verif.PecFile
import Verif.Props.PecFileProps
import Verif.Pes
import Verif.Props.PesProps
import Verif.Props.PesSegProps
import Verif.Gcode
import Verif.Props.GcodeProps
import Verif.Svg
import Verif.Props.SvgProps
import Verif.Txt
import Verif.Props.TxtProps
import Verif.Pmv
import Verif.Props.PmvProps
import Verif.Palettes
import Verif.Hus
import Verif.Props.HusProps
import Verif.Containers
import Verif.Props.ContainerProps
import Verif.Shv
import Verif.Props.ShvProps
import Verif.Props.RecordProps
import Verif.Props.RecordProps2
import Verif.Props.RecordProps3
import Verif.SmallFiles
import Verif.Props.SmallFileProps
import Verif.Props.PesVersionProps
import Verif.Props.ShadeProps
import Verif.Enter
import Verif.Props.EnterProps
import Verif.ThreadSet
import Verif.Props.ThreadSetProps
import Verif.Props.SaveLoadProps
import Verif.Props.NeedleShadeProps
import Verif.Props.GcodeProgProps
import Verif.Float
import Verif.Props.FloatProps
import Verif.Props.ResaveProps
import Verif.Props.PesDetailProps
import Verif.Props.CutProps
import Verif.Props.CutFileProps
import Verif.Props.EndProps
import Verif.Props.EndFileProps
import Verif.GenericText
import Verif.Props.GenericTextProps
import Verif.PngGuides
import Verif.Props.PngGuidesProps
import Verif.Props.EndPecProps
import Verif.Props.SavedProps
import Verif.Props.IdempotentNeedleProps
import Verif.Props.ResaveMoreProps
import Verif.Props.MirrorProps
import Verif.Props.MoveProps
import Verif.Props.SizeProps
import Verif.Props.TransformProps
import Verif.Props.ConvertProps
import Verif.Props.SettingProps
import Verif.Props.CausalProps
import Verif.Props.UnitProps
import Verif.Ct0
import Verif.Props.Ct0Props
import Verif.Props.EqualProps
import Verif.Files
import Verif.Props.FilesProps
import Verif.Props.ScoreProps
import Verif.Props.GrowthProps
import Verif.Props.Vp3TreeProps
import Verif.Props.PecColourProps
import Verif.Props.ConvertMoreProps
import Verif.Props.HoopProps
import Verif.Props.CsvReadProps
import Verif.Props.ConvertSourceProps
import Verif.Into
import Verif.Props.AfterEndProps
import Verif.Props.IntoProps
import Verif.Props.WordProps
import Verif.Props.SameFileProps
import Verif.Props.ElsewhereProps
import Verif.Props.Vp3ElsewhereProps
import Verif.Props.ColourElsewhereProps
import Verif.Extras
import Verif.Props.ExtrasProps
import Verif.Props.SequinProps
import Verif.LoadTrims
import Verif.Props.LoadTrimProps
import Verif.Props.JefTrimProps
import Verif.Props.DstTrimProps
import Verif.SaveSettings
import Verif.Props.SaveSettingProps
import Verif.Props.FileSizeProps
import Verif.Props.AppendTranslationProps
import Verif.Props.NeedleMatrixProps
import Verif.Props.Vp3FractionProps
import Verif.Props.Vp3SewnProps
import Verif.Props.Vp3ConvertProps
import Verif.Props.SameXxxProps
import Verif.Props.ArrayProps
import Verif.Props.MatrixShapeProps
import Verif.Listing
import Verif.Props.ListingProps
