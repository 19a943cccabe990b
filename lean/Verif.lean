import Verif.Props.Primitives
import Verif.Props.PackedDeltas
import Verif.Props.PackedPoints
import Verif.Props.Font
import Verif.Props.F32
import Verif.Props.SimpleTables
import Verif.Props.Hmtx
import Verif.Props.Loca
import Verif.Props.Offsets
import Verif.Props.Coverage
import Verif.Props.ClassDef
import Verif.Props.Device
import Verif.Props.ValueRecord
import Verif.Props.Gsub
import Verif.Props.GsubLigature
import Verif.Props.GsubContext
import Verif.Props.GsubMatch
import Verif.Props.LayoutTables
import Verif.Props.GsubTable
import Verif.Props.TableStore
import Verif.Props.FontSave
import Verif.Props.Cmap12
import Verif.Props.Cmap4
import Verif.Props.Cmap4Big
import Verif.Props.CmapChoice
import Verif.Props.GlyphSimple
import Verif.Props.GlyphComposite
import Verif.Props.Contour
import Verif.Props.GlyfTable
import Verif.Props.GlyfBounds
import Verif.Props.PackedRuns
import Verif.Props.TupleVar
import Verif.Props.GvarPoints
import Verif.Props.IupSegment
import Verif.Props.Iup
import Verif.Props.IupOptimize
import Verif.Props.IupGlyph
import Verif.Props.IupLong
import Verif.Props.Support
import Verif.Props.VarModel
import Verif.Props.SegmentMap
import Verif.Props.DesignMap
import Verif.Props.Normalise
import Verif.Props.Fvar
import Verif.Props.NameTable
import Verif.Props.PostTable
import Verif.Props.ItemVar
import Verif.Props.Gdef
import Verif.Props.GvarDeltas
import Verif.Props.Gvar
import Verif.Props.GvarWrites
import Verif.Props.GvarBounds
import Verif.Props.Instancer
import Verif.Props.InstancerRuns
import Verif.Props.InstancerFont
import Verif.Props.InstancerFvar
import Verif.Props.InstancerAvar
import Verif.Props.Gpos
import Verif.Props.GposPair
import Verif.Props.GposMark
import Verif.Props.GposClass
import Verif.Props.GposTable
import Verif.Props.Stat
import Verif.Props.InstancerStat
import Verif.Props.Os2
import Verif.Props.Os2Ranges
import Verif.Props.Os2Pages
import Verif.Props.Cmap14
import Verif.Props.CmapTable
import Verif.Props.MaxpStats
import Verif.Props.Decompose
import Verif.Props.SpecLayout
import Verif.Props.SpecLayoutTables
import Verif.Props.SpecLink
import Verif.Props.SpecLists
import Verif.Props.SpecGsub
import Verif.Props.SpecGpos
import Verif.Props.SpecGdef
import Verif.Model.Cli
import Verif.Lemmas.Cli
import Verif.Lemmas.CliSave
import Verif.Lemmas.CliTool
import Verif.Lemmas.CliAgain
import Verif.Props.Cli
import Verif.Lemmas.CliRename
import Verif.Props.CliRename
import Verif.Props.GvarShort
import Verif.Lemmas.CliGvar
import Verif.Props.CliGvar
import Verif.Lemmas.CliOn
import Verif.Lemmas.CliFlat
import Verif.Props.GlyphReread
import Verif.Props.CliFlatten
import Verif.Model.CliInstance
import Verif.Lemmas.CliInstance
import Verif.Lemmas.CliInstFont
import Verif.Lemmas.CliInstSpec
import Verif.Props.CliInstance
import Verif.Props.CliEnds
import Verif.Lemmas.Finds
import Verif.Props.ForeignCov
import Verif.Props.ForeignGsub
import Verif.Props.ForeignLists
import Verif.Props.ForeignGsubTable
import Verif.Props.ForeignDevice
import Verif.Props.ForeignGpos
import Verif.Props.ForeignGposTable
import Verif.Props.ForeignGdef
import Verif.Lemmas.FindsNum
import Verif.Props.ForeignTables
import Verif.Props.ForeignText
import Verif.Props.ForeignCmap
import Verif.Props.ForeignGlyf
import Verif.Props.ForeignGvar
import Verif.Props.ForeignMath
import Verif.Model.AllTables
import Verif.Lemmas.FontDirectory
import Verif.Lemmas.WholeFont
import Verif.Props.WholeFont
import Verif.Props.LoadAll
import Verif.Model.KurboPath
import Verif.Props.KurboPath
import Verif.Model.Overlap
import Verif.Model.Crunch
import Verif.Lemmas.CliGlyphs
import Verif.Props.Overlap
import Verif.Props.ContourOutline
import Verif.Props.Crunch
import Verif.Props.OverlapFile
import Verif.Model.CliCrunch
import Verif.Lemmas.CliCrunch
import Verif.Props.CrunchFile
import Verif.Model.EditMath
import Verif.Props.EditMath
import Verif.Props.ToolEnds
import Verif.Model.CrunchOpt
import Verif.Props.CrunchOpt
import Verif.Props.CrunchBreaks
import Verif.Props.CrunchBest
import Verif.Props.CrunchStored
import Verif.Model.FontEq
import Verif.Props.FontEq
import Verif.Model.Designspace
import Verif.Props.Designspace
import Verif.Props.DesignMasters
import Verif.Props.GlyfFlat
import Verif.Props.PackedPointsExact
import Verif.Props.TupleHeaderMore
import Verif.Props.LayoutWrites
import Verif.Props.TextMore
import Verif.Props.TagMacro
import Verif.Props.ForeignCmapMore
import Verif.Props.ForeignName
import Verif.Props.Derive
import Verif.Props.DeriveLayout
import Verif.Props.Nearest
import Verif.Props.NewTables
import Verif.Props.DeriveTab
import Verif.Props.TablesMacro
import Verif.Props.DeclaredText
import Verif.Lemmas.TabRoom
import Verif.Props.GsubRoom
import Verif.Props.GposRoom
import Verif.Model.OffsetGraph
import Verif.Props.OffsetGraph
import Verif.Model.F2dot14Ord
import Verif.Props.F2dot14Ord
import Verif.Props.DeriveTabRead
import Verif.Props.ForeignGvarMore
import Verif.Props.DeriveMath
import Verif.Props.DeriveMore
import Verif.Model.DeriveAsk
import Verif.Props.DeriveAsk
import Verif.Props.DeriveGdef
import Verif.Props.DeriveStore
import Verif.Props.DeriveAvar
