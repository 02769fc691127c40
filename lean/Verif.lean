import Verif.Model.StringTable
import Verif.Model.HashTables
import Verif.Model.Writer
import Verif.Model.Linker
import Verif.Model.Script
import Verif.Model.Cli
import Verif.Props.Names
import Verif.Props.StringTable
import Verif.Props.Serialize
import Verif.Props.Symbols
import Verif.Props.HashTables
import Verif.Props.Reloc
import Verif.Props.Layout
import Verif.Lemmas.History
import Verif.Lemmas.HistFacts
import Verif.Lemmas.Pipeline
import Verif.Lemmas.Run
import Verif.Lemmas.Place
import Verif.Lemmas.Names
import Verif.Lemmas.Trace
import Verif.Lemmas.Symtab
import Verif.Lemmas.Contents
import Verif.Lemmas.Trip
import Verif.Lemmas.Chunks
import Verif.Lemmas.Image
import Verif.Lemmas.Own
import Verif.Lemmas.Demo
import Verif.Props.Program
import Verif.Spec.Cli
import Verif.Props.Cli
import Verif.Spec.Script
import Verif.Props.Script
import Verif.Props.Main
import Verif.Spec.File
import Verif.Spec.Dynamic
import Verif.Lemmas.FileRead
import Verif.Lemmas.Dynamic
import Verif.Lemmas.Check
import Verif.Props.File
import Verif.Spec.Got
import Verif.Lemmas.HistSyms
import Verif.Lemmas.Scan
import Verif.Lemmas.DynRels
import Verif.Lemmas.Imports
import Verif.Lemmas.PltBytes
import Verif.Lemmas.PltFile
import Verif.Lemmas.TableRead
import Verif.Lemmas.LinkFile
import Verif.Props.Got
import Verif.Spec.Contents
import Verif.Lemmas.Placed
import Verif.Lemmas.Progress
import Verif.Lemmas.Weight
import Verif.Lemmas.Cost
import Verif.Lemmas.Pushes
import Verif.Props.Contents
import Verif.Spec.Values
import Verif.Lemmas.Values
import Verif.Lemmas.Defined
import Verif.Lemmas.SymbolFile
import Verif.Props.Values
import Verif.Lemmas.ArrayBounds
import Verif.Lemmas.Bounds
import Verif.Props.Bounds
import Verif.Spec.Driver
import Verif.Lemmas.Driver
import Verif.Lemmas.Resolve
import Verif.Lemmas.Link
import Verif.Lemmas.Unresolved
import Verif.Lemmas.LinkGood
import Verif.Lemmas.LinkCalls
import Verif.Lemmas.DemoLink
import Verif.Lemmas.Fails
import Verif.Spec.Blame
import Verif.Lemmas.Blame
import Verif.Props.Errors
import Verif.Lemmas.Listed
import Verif.Props.Driver
import Verif.Spec.Archive
import Verif.Lemmas.Terminates
import Verif.Props.Resolve
import Verif.Model.Disk
import Verif.Props.Disk
import Verif.Props.Locks
import Verif.Spec.Loader
import Verif.Props.Loader
import Verif.Spec.Refs
import Verif.Props.Refs
import Verif.Props.Scan
import Verif.Spec.Lookup
import Verif.Props.Lookup
import Verif.Spec.Progress
import Verif.Lemmas.Progress2
import Verif.Lemmas.Notes
import Verif.Lemmas.Progress3
import Verif.Lemmas.Progress4
import Verif.Lemmas.Progress5
import Verif.Lemmas.Progress6
import Verif.Lemmas.Progress7
import Verif.Lemmas.Progress8
import Verif.Props.Progress
import Verif.Spec.Numbers
import Verif.Lemmas.Fits
import Verif.Lemmas.Fits2
import Verif.Lemmas.Fits3
import Verif.Props.Numbers
import Verif.Spec.Sound
import Verif.Lemmas.Sound
import Verif.Lemmas.Sound2
import Verif.Lemmas.Sound3
import Verif.Lemmas.DemoSound
import Verif.Props.Sound
import Verif.Spec.Runtime
import Verif.Lemmas.Runtime
import Verif.Lemmas.DynPlace
import Verif.Props.Runtime
import Verif.Props.Start
import Verif.Model.Process
import Verif.Spec.Process
import Verif.Props.Process
import Verif.Spec.Order
import Verif.Lemmas.Order
import Verif.Lemmas.Order2
import Verif.Lemmas.Order3
import Verif.Lemmas.Order4
import Verif.Lemmas.Order5
import Verif.Props.Order
import Verif.Props.ObjectOrder
import Verif.Spec.Files
import Verif.Lemmas.Files
import Verif.Props.Files
import Verif.Spec.Perms
import Verif.Lemmas.Perms
import Verif.Props.Perms
import Verif.Spec.Ctors
import Verif.Props.Ctors
import Verif.Spec.Unused
import Verif.Lemmas.Unused
import Verif.Props.Unused
import Verif.Spec.Fixed
import Verif.Lemmas.Fixed
import Verif.Lemmas.DemoFiles
import Verif.Props.Fixed
import Verif.Props.Loose
import Verif.Spec.Rename
import Verif.Lemmas.Rename
import Verif.Props.Rename
import Verif.Spec.Asked
import Verif.Props.Asked
import Verif.Spec.Exports
import Verif.Props.Exports
import Verif.Lemmas.Twice
import Verif.Spec.Twice
import Verif.Props.Twice
import Verif.Props.Zero
import Verif.Spec.Silent
import Verif.Props.Silent
import Verif.Spec.Visibility
import Verif.Lemmas.Strongest
import Verif.Props.Visibility
import Verif.Spec.OneDef
import Verif.Props.OneDef
import Verif.Spec.Modes
import Verif.Props.Modes
import Verif.Spec.Archives
import Verif.Props.Archives
import Verif.Spec.Versions
import Verif.Props.Versions
import Verif.Model.Text
import Verif.Spec.Text
import Verif.Props.Text
import Verif.Spec.Complete
import Verif.Props.Complete
import Verif.Props.Inputs
import Verif.Spec.Marked
import Verif.Props.Marked
import Verif.Spec.Machine
import Verif.Props.Machine
import Verif.Spec.Damaged
import Verif.Props.Damaged
import Verif.Spec.Rerun
import Verif.Props.Rerun
import Verif.Spec.Private
import Verif.Props.Private
import Verif.Props.LoaderName
import Verif.Props.Padding
import Verif.Props.Again
import Verif.Spec.Repeat
import Verif.Props.Repeat
import Verif.Spec.Shape
import Verif.Lemmas.Near
import Verif.Props.Shape
import Verif.Spec.CompleteAr
import Verif.Lemmas.OnceMembers
import Verif.Props.CompleteAr
import Verif.Spec.Reached
import Verif.Lemmas.Reached
import Verif.Props.Reached
import Verif.Props.Build
import Verif.Spec.Interface
import Verif.Props.Interface
import Verif.Model.Full
import Verif.Props.Full
import Verif.Spec.CompleteLib
import Verif.Lemmas.LibOnce
import Verif.Props.CompleteLib
import Verif.Spec.MoreLibs
import Verif.Props.MoreLibs
import Verif.Spec.Shuffled
import Verif.Props.Shuffled
import Verif.Props.Override
import Verif.Lemmas.LibMembers
import Verif.Spec.CompleteAll
import Verif.Props.CompleteAll
import Verif.Props.MoreLibsAr
import Verif.Spec.Archived
import Verif.Props.Archived
import Verif.Spec.Size
import Verif.Props.Size
import Verif.Props.Extent
