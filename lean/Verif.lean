import Verif.Props.Reader
import Verif.Props.DwarfReader
import Verif.Props.Cfi
import Verif.Props.Expr
import Verif.Props.UnwindSample
import Verif.Props.SavedRegs
import Verif.Props.LocList
import Verif.Props.Json
import Verif.Props.Canal
import Verif.Props.Flags
import Verif.Props.Segments
import Verif.Props.SymHash
import Verif.Props.Notes
import Verif.Props.Core
import Verif.Props.CoreNotes
import Verif.Props.Lines
import Verif.Props.Live
import Verif.Props.LiveScan
import Verif.Props.Die
import Verif.Model.Info
import Verif.Model.Ranges
import Verif.Model.Lookup
import Verif.Spec.Info
import Verif.Proof.Info
import Verif.Proof.InfoKeep
import Verif.Props.Info
import Verif.Spec.AttrValue
import Verif.Proof.AttrValue
import Verif.Props.AttrValue
import Verif.Spec.Ranges
import Verif.Spec.Lookup
import Verif.Proof.Ranges
import Verif.Proof.Lookup
import Verif.Props.Ranges
import Verif.Props.Lookup
import Verif.Model.FindEntry
import Verif.Spec.Kids
import Verif.Spec.FindEntry
import Verif.Proof.Place
import Verif.Proof.Contains
import Verif.Proof.FindEntry
import Verif.Proof.Inlined
import Verif.Props.FindEntry
import Verif.Model.Heap
import Verif.Spec.Heap
import Verif.Proof.Heap
import Verif.Proof.HeapCalls
import Verif.Proof.HeapBig
import Verif.Props.Heap
import Verif.Model.Maps
import Verif.Spec.Maps
import Verif.Proof.Maps
import Verif.Props.Maps
import Verif.Model.Compressed
import Verif.Spec.Compressed
import Verif.Proof.Compressed
import Verif.Props.Compressed
import Verif.Model.Python
import Verif.Spec.Python
import Verif.Proof.Python
import Verif.Proof.PythonEnds
import Verif.Proof.PythonShow
import Verif.Proof.PythonArgs
import Verif.Proof.PythonRender
import Verif.Proof.PythonStack
import Verif.Proof.PythonMore
import Verif.Proof.PythonAll
import Verif.Proof.PythonSample
import Verif.Proof.PythonBad
import Verif.Props.Python
import Verif.Model.Images
import Verif.Spec.Images
import Verif.Proof.Images
import Verif.Proof.ImagesCache
import Verif.Proof.ImagesSame
import Verif.Props.Images
import Verif.Model.Startup
import Verif.Spec.Startup
import Verif.Proof.Startup
import Verif.Proof.StartupLoad
import Verif.Proof.StartupAll
import Verif.Props.Startup
import Verif.Model.DieName
import Verif.Spec.DieName
import Verif.Proof.DieName
import Verif.Props.DieName
import Verif.Model.Args
import Verif.Spec.Args
import Verif.Spec.ArgMeaning
import Verif.Proof.Args
import Verif.Proof.ArgList
import Verif.Props.Args
import Verif.Props.ArgsExample
import Verif.Model.StackText
import Verif.Spec.StackText
import Verif.Proof.StackText
import Verif.Props.StackText
import Verif.Props.StackTextExample
import Verif.Model.Macros
import Verif.Spec.Macros
import Verif.Proof.Macros
import Verif.Props.Macros
import Verif.Props.MacrosExample
import Verif.Model.Pubnames
import Verif.Spec.Pubnames
import Verif.Props.Pubnames
import Verif.Model.Sections
import Verif.Spec.Sections
import Verif.Props.Sections
import Verif.Model.Symbols
import Verif.Spec.Symbols
import Verif.Props.Symbols
import Verif.Model.Main
import Verif.Spec.Main
import Verif.Props.Main
import Verif.Model.Child
import Verif.Spec.Child
import Verif.Props.Child
import Verif.Spec.RegValues
import Verif.Model.Stacks
import Verif.Spec.Stacks
import Verif.Props.Stacks
import Verif.Props.StacksExample
import Verif.Model.Report
import Verif.Spec.Report
import Verif.Props.Report
import Verif.Props.ReportExample
import Verif.Model.Source
import Verif.Spec.Source
import Verif.Proof.Source
import Verif.Props.Source
import Verif.Props.SourceExample
import Verif.Model.Hdmp
import Verif.Spec.Hdmp
import Verif.Props.Hdmp
import Verif.Props.HdmpExample
import Verif.Model.Versions
import Verif.Spec.Versions
import Verif.Props.Versions
import Verif.Props.VersionsExample
import Verif.Model.TypeName
import Verif.Spec.TypeName
import Verif.Props.TypeName
import Verif.Props.TypeNameExample
import Verif.Model.StackUsers
import Verif.Spec.StackUsers
import Verif.Props.StackUsers
import Verif.Props.StackUsersExample
import Verif.Model.FindString
import Verif.Spec.FindString
import Verif.Props.FindString
import Verif.Model.CanalScan
import Verif.Spec.CanalScan
import Verif.Props.CanalScan
import Verif.Props.CanalReport
import Verif.Props.CanalExample
import Verif.Model.DumpCfa
import Verif.Spec.DumpCfa
import Verif.Proof.DumpCfa
import Verif.Props.DumpCfa
import Verif.Model.DumpSyms
import Verif.Spec.DumpSyms
import Verif.Props.DumpSyms
import Verif.Model.StackJson
import Verif.Spec.StackJson
import Verif.Props.StackJson
import Verif.Model.DumpObject
import Verif.Spec.DumpObject
import Verif.Props.DumpObject
