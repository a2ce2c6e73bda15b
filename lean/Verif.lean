import Verif.Py
import Verif.Struct
import Verif.Defs
import Verif.Runtime
import Verif.ClassText
import Verif.Maps
import Verif.MapStream
import Verif.Fold
import Verif.Hint
import Verif.Parse
import Verif.Refine
import Verif.PyLemmas
import Verif.StructLemmas
import Verif.Spec
import Verif.SpecLemmas
import Verif.PrimLemmas
import Verif.Builder
import Verif.Equality
import Verif.Every
import Verif.Linear
import Verif.Loop
import Verif.ParseFacts
import Verif.ParseShift
import Verif.ParseSize
import Verif.Layout
import Verif.Elements
import Verif.Depth
import Verif.Props.Primitive
import Verif.Props.Definitions
import Verif.Props.Members
import Verif.Props.Mapping
import Verif.Props.Structures
import Verif.Props.Sequences
import Verif.Props.SequenceLinear
import Verif.Props.Streams
import Verif.Props.Termination
import Verif.Props.Groups
import Verif.Props.Formats
import Verif.Registry
import Verif.Props.Registry
import Verif.Props.Classes
import Verif.Props.Expressions
import Verif.RoundTrip
import Verif.Props.Folding
import Verif.Reader
import Verif.ReaderLemmas
import Verif.Props.Reader
import Verif.Props.References
import Verif.Props.ReaderKeys
import Verif.Props.Documents
import Verif.Props.Library
import Verif.Props.Reorder
import Verif.Props.ReaderBoolean
import Verif.Props.ReaderErrors
import Verif.Props.Validator
import Verif.Props.Errors
import Verif.HintFacts
import Verif.Props.Hints
import Verif.Resume
import Verif.Props.Resume
import Verif.Props.FoldStreams
import Verif.FoldMap
import Verif.Props.FoldBack
import Verif.Float
import Verif.Props.Floats
import Verif.Text
import Verif.Props.Texts
import Verif.ParseLocal
import Verif.Bounds
import Verif.Props.Locality
import Verif.Props.Contexts
import Verif.Schema
import Verif.SchemaMap
import Verif.SchemaFold
import Verif.Fabric
import Verif.Props.Fabric
import Verif.Heap
import Verif.HeapLemmas
import Verif.Props.Heap
import Verif.Props.Creation
import Verif.Props.ClassTexts
import Verif.Props.Accepted
import Verif.Variable
import Verif.VariableMap
import Verif.VariableFold
import Verif.Arithmetic
import Verif.Props.Location
import Verif.Props.Variable
import Verif.Props.ClassDocs
import Verif.Orders
import Verif.VariableOpen
import Verif.Location
import Verif.Props.Orders
import Verif.VariableParts
import Verif.ResumeDefs
import Verif.Props.VariableParts
import Verif.Props.PieceDefs
import Verif.Props.Lengths
import Verif.Props.Requested
import Verif.Relabel
import Verif.Props.Relabel
import Verif.Reword
import Verif.Props.Reword
import Verif.Props.Growth
import Verif.Props.Extract
import Verif.Props.Complete
import Verif.Honest
import Verif.Props.Honest
import Verif.Props.ByteNumbers
import Verif.Props.FoldSize
import Verif.Props.Unroll
import Verif.Props.Access
import Verif.Props.Optional
import Verif.Props.GroupGrowth
import Verif.Props.FoldErrors
import Verif.Props.Values
import Verif.Props.Padded
import Verif.Props.Telling
import Verif.Props.Defaults
import Verif.Props.Required
import Verif.Accessors
import Verif.Props.FormatLayout
import Verif.Props.Refold
import Verif.Props.FoldParts
import Verif.Props.Patch
import Verif.Props.Records
import Verif.Rename
import Verif.RenameCreate
import Verif.RenameFold
import Verif.RenameArith
import Verif.Props.Names
import Verif.Props.Loosen
import Verif.Props.Postpone
import Verif.Props.Places
import Verif.Props.Absent
import Verif.Respell
import Verif.Props.Respell
import Verif.Props.Duality
import Verif.Props.Headings
import Verif.Props.Platform
import Verif.Props.Native
import Verif.Props.Notation
import Verif.Props.Overwrite
import Verif.Props.Cut
import Verif.Props.Shapes
import Verif.Props.Occur
import Verif.Reorder
import Verif.Props.KeyOrder
import Verif.Props.Unused
import Verif.Props.Rows
import Verif.Retype
import Verif.Props.Retype
import Verif.Props.Again
import Verif.Props.ListOrder
import Verif.Props.IntegerKin
import Verif.Props.HowLong
import Verif.Props.Piecewise
import Verif.Props.OwnTypes
import Verif.Props.Kinds
import Verif.Props.KindRows
import Verif.Conformance.Maps
import Verif.Conformance.Reader
