import Verif.Lemmas.Alone
import Verif.Lemmas.Blame
import Verif.Lemmas.Bounded
import Verif.Lemmas.Chain
import Verif.Lemmas.Clock
import Verif.Lemmas.Compare
import Verif.Lemmas.Confined
import Verif.Lemmas.Cut
import Verif.Lemmas.Debug
import Verif.Lemmas.DebugInstr
import Verif.Lemmas.DebugModule
import Verif.Lemmas.DecEq
import Verif.Lemmas.DeclErrors
import Verif.Lemmas.DeclModule
import Verif.Lemmas.Declarative
import Verif.Lemmas.Deep
import Verif.Lemmas.Depth
import Verif.Lemmas.Dialect
import Verif.Lemmas.Early
import Verif.Lemmas.Elements
import Verif.Lemmas.Encode
import Verif.Lemmas.Equality
import Verif.Lemmas.Exec
import Verif.Lemmas.Extend
import Verif.Lemmas.Extent
import Verif.Lemmas.Fault
import Verif.Lemmas.Flat
import Verif.Lemmas.FlatCalls
import Verif.Lemmas.Float
import Verif.Lemmas.Frames
import Verif.Lemmas.Fuel
import Verif.Lemmas.Grant
import Verif.Lemmas.GrantMain
import Verif.Lemmas.GrantParse
import Verif.Lemmas.GrantValid
import Verif.Lemmas.Heights
import Verif.Lemmas.Held
import Verif.Lemmas.HeldItem
import Verif.Lemmas.Inline
import Verif.Lemmas.Inside
import Verif.Lemmas.Instantiate
import Verif.Lemmas.InstrGrammar
import Verif.Lemmas.Instrs
import Verif.Lemmas.Isolate
import Verif.Lemmas.Items
import Verif.Lemmas.Iter
import Verif.Lemmas.Later
import Verif.Lemmas.LaterLift
import Verif.Lemmas.Layout
import Verif.Lemmas.Leb
import Verif.Lemmas.LebMore
import Verif.Lemmas.Link
import Verif.Lemmas.LinkInst
import Verif.Lemmas.Linker
import Verif.Lemmas.Local
import Verif.Lemmas.Memory
import Verif.Lemmas.MemoryOver
import Verif.Lemmas.MemoryRoom
import Verif.Lemmas.MemoryVectors
import Verif.Lemmas.Metered
import Verif.Lemmas.MeteredBytes
import Verif.Lemmas.MeteredPeak
import Verif.Lemmas.Modules
import Verif.Lemmas.Names
import Verif.Lemmas.Native
import Verif.Lemmas.Occurs
import Verif.Lemmas.OnePass
import Verif.Lemmas.Open
import Verif.Lemmas.Parser
import Verif.Lemmas.Pass
import Verif.Lemmas.PassStep
import Verif.Lemmas.PassTree
import Verif.Lemmas.Plain
import Verif.Lemmas.Points
import Verif.Lemmas.PointsAll
import Verif.Lemmas.Prefix
import Verif.Lemmas.Preserve
import Verif.Lemmas.Printed
import Verif.Lemmas.Process
import Verif.Lemmas.Raw
import Verif.Lemmas.Reduce
import Verif.Lemmas.Reflow
import Verif.Lemmas.Registers
import Verif.Lemmas.Renumber
import Verif.Lemmas.Rewrite
import Verif.Lemmas.Room
import Verif.Lemmas.RoomLower
import Verif.Lemmas.RoomModule
import Verif.Lemmas.Run
import Verif.Lemmas.Scope
import Verif.Lemmas.Sections
import Verif.Lemmas.Shortest
import Verif.Lemmas.Show
import Verif.Lemmas.Siblings
import Verif.Lemmas.Sound
import Verif.Lemmas.Space
import Verif.Lemmas.SpaceCalls
import Verif.Lemmas.Stream
import Verif.Lemmas.Total
import Verif.Lemmas.Trace
import Verif.Lemmas.Types
import Verif.Lemmas.Typing
import Verif.Lemmas.Utf8
import Verif.Lemmas.Validity
import Verif.Lemmas.Width
import Verif.Lemmas.Words
import Verif.Model.Arrive
import Verif.Model.Basic
import Verif.Model.BinaryInstr
import Verif.Model.BinaryModule
import Verif.Model.Cli
import Verif.Model.Clock
import Verif.Model.Compare
import Verif.Model.Conformance
import Verif.Model.Context
import Verif.Model.Core
import Verif.Model.Debug
import Verif.Model.Declarative
import Verif.Model.DeclarativeTypes
import Verif.Model.Equality
import Verif.Model.Grant
import Verif.Model.GrantTypes
import Verif.Model.Held
import Verif.Model.Inline
import Verif.Model.Iter
import Verif.Model.Kinds
import Verif.Model.Leb
import Verif.Model.Memory
import Verif.Model.Message
import Verif.Model.Metered
import Verif.Model.Native
import Verif.Model.Place
import Verif.Model.Process
import Verif.Model.ProcessTypes
import Verif.Model.Raw
import Verif.Model.Room
import Verif.Model.Scope
import Verif.Model.Stacks
import Verif.Model.StdText
import Verif.Model.Structure
import Verif.Model.Target
import Verif.Model.ValidInstr
import Verif.Model.ValidModule
import Verif.Model.Width
import Verif.Props.Alone
import Verif.Props.Blame
import Verif.Props.Bounded
import Verif.Props.Cli
import Verif.Props.Clock
import Verif.Props.Compare
import Verif.Props.Confined
import Verif.Props.Core
import Verif.Props.Cut
import Verif.Props.Debug
import Verif.Props.DeclErrors
import Verif.Props.Declarative
import Verif.Props.Deep
import Verif.Props.Early
import Verif.Props.Encode
import Verif.Props.Equality
import Verif.Props.Exact
import Verif.Props.Extend
import Verif.Props.Extent
import Verif.Props.Fault
import Verif.Props.Flat
import Verif.Props.FrameSize
import Verif.Props.Frames
import Verif.Props.Grammar
import Verif.Props.Grant
import Verif.Props.Held
import Verif.Props.Inline
import Verif.Props.Isolate
import Verif.Props.Iter
import Verif.Props.Later
import Verif.Props.Layout
import Verif.Props.Leb
import Verif.Props.Link
import Verif.Props.Linker
import Verif.Props.Marked
import Verif.Props.Memory
import Verif.Props.Message
import Verif.Props.Metered
import Verif.Props.Module
import Verif.Props.Native
import Verif.Props.OnePass
import Verif.Props.Open
import Verif.Props.Parsing
import Verif.Props.Pass
import Verif.Props.PassFile
import Verif.Props.Points
import Verif.Props.Prefix
import Verif.Props.Printed
import Verif.Props.Process
import Verif.Props.Raw
import Verif.Props.Reduce
import Verif.Props.Registers
import Verif.Props.Renumber
import Verif.Props.Rewrite
import Verif.Props.Room
import Verif.Props.Run
import Verif.Props.Scope
import Verif.Props.Shortest
import Verif.Props.Show
import Verif.Props.Space
import Verif.Props.Stream
import Verif.Props.Target
import Verif.Props.Typing
import Verif.Props.Validity
import Verif.Props.Verdict
import Verif.Props.Width
import Verif.Props.Words
import Verif.Spec.Alone
import Verif.Spec.Assemble
import Verif.Spec.Blame
import Verif.Spec.Bounded
import Verif.Spec.Chain
import Verif.Spec.Cli
import Verif.Spec.Compare
import Verif.Spec.Confined
import Verif.Spec.Cost
import Verif.Spec.Cut
import Verif.Spec.Debug
import Verif.Spec.Deep
import Verif.Spec.Depth
import Verif.Spec.Encode
import Verif.Spec.Extend
import Verif.Spec.Extent
import Verif.Spec.Fault
import Verif.Spec.Flat
import Verif.Spec.Float
import Verif.Spec.Frames
import Verif.Spec.Grammar
import Verif.Spec.Grant
import Verif.Spec.Instantiate
import Verif.Spec.Isolate
import Verif.Spec.Items
import Verif.Spec.Iterator
import Verif.Spec.Later
import Verif.Spec.Layout
import Verif.Spec.Leb
import Verif.Spec.Link
import Verif.Spec.Linker
import Verif.Spec.Marked
import Verif.Spec.Memory
import Verif.Spec.Native
import Verif.Spec.Occurs
import Verif.Spec.OnePass
import Verif.Spec.Opcodes
import Verif.Spec.Open
import Verif.Spec.Parser
import Verif.Spec.Pass
import Verif.Spec.PassFile
import Verif.Spec.Points
import Verif.Spec.Prefix
import Verif.Spec.Printed
import Verif.Spec.Process
import Verif.Spec.Reason
import Verif.Spec.Reduce
import Verif.Spec.Reflow
import Verif.Spec.Registers
import Verif.Spec.Renumber
import Verif.Spec.Rewrite
import Verif.Spec.Room
import Verif.Spec.Run
import Verif.Spec.Safety
import Verif.Spec.Sections
import Verif.Spec.Show
import Verif.Spec.Size
import Verif.Spec.Space
import Verif.Spec.Stream
import Verif.Spec.Typing
import Verif.Spec.Validity
import Verif.Spec.Verdict
import Verif.Spec.Width
import Verif.Spec.Words
