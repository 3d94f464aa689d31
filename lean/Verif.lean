import Verif.Props.Search
import Verif.Props.Build
import Verif.Props.Codec
import Verif.Props.Storage
import Verif.Props.Elements
import Verif.Props.PermuteRun
import Verif.Props.Blas
import Verif.Props.Reorder
import Verif.Props.Schedule
import Verif.Props.Rw
import Verif.Props.Math
import Verif.Props.Words
import Verif.Props.Links
import Verif.Props.Float
import Verif.Props.EndToEnd
import Verif.Props.HighDim
import Verif.Props.Text
import Verif.Props.TextIndex
import Verif.Props.SumIndex
import Verif.Props.Format
import Verif.Props.Monotone
import Verif.Props.RwLinks
import Verif.Props.Py
import Verif.Props.PyIsolation
import Verif.Props.PyReorder
import Verif.Props.PyText
import Verif.Props.PyTextIndex
import Verif.Props.PyTextSession
import Verif.Props.PyTextReorder
import Verif.Props.PyTextIsolation
import Verif.Props.PyTextFiles
import Verif.Props.Sequential
import Verif.Props.Lost
import Verif.Props.Cost
import Verif.Props.Header
import Verif.Props.OpenFile
import Verif.Props.Views
import Verif.Props.RwSave
import Verif.Props.RwRead
import Verif.Props.PyTools
import Verif.Props.Tools
import Verif.Props.WordsCut
import Verif.Props.ReorderBuild
import Verif.Props.Dims
import Verif.Props.LinkCount
import Verif.Props.Heap
import Verif.Props.FileSize
import Verif.Props.Debug
import Verif.Props.Rescale
import Verif.Props.Shape
import Verif.Props.Reserve
import Verif.Props.Later
import Verif.Props.ScaleRounded
