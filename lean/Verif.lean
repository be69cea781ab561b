import Verif.Props.Actions
import Verif.Props.Alloc
import Verif.Props.AllocUsage
import Verif.Props.ArrayCopy
import Verif.Props.Asm.Jumps
import Verif.Props.Asm.Operands
import Verif.Props.Asm.Peephole
import Verif.Props.Asm.Running
import Verif.Props.AstObj
import Verif.Props.Callbacks
import Verif.Props.Compile.Depth
import Verif.Props.Compile.Eval
import Verif.Props.Compile.Functions
import Verif.Props.Compile.Labels
import Verif.Props.Compile.Quote
import Verif.Props.Compile.Scope
import Verif.Props.Compile.Session
import Verif.Props.DlFloat
import Verif.Props.DlString
import Verif.Props.DynArray
import Verif.Props.Infer
import Verif.Props.Linking
import Verif.Props.Listing
import Verif.Props.Load
import Verif.Props.Macro
import Verif.Props.Mem
import Verif.Props.Print
import Verif.Props.PrintObj
import Verif.Props.Reader
import Verif.Props.Sort
import Verif.Props.Tables
import Verif.Props.Trie
import Verif.Props.VM.Apply
import Verif.Props.VM.Calls
import Verif.Props.VM.CallsByKey
import Verif.Props.VM.Closures
import Verif.Props.VM.Compare
import Verif.Props.VM.CompareFloats
import Verif.Props.VM.Composites
import Verif.Props.VM.GlobalHistory
import Verif.Props.VM.Globals
import Verif.Props.VM.Heap
import Verif.Props.VM.HostClosures
import Verif.Props.VM.HostInstances
import Verif.Props.VM.HostSequences
import Verif.Props.VM.HostValues
import Verif.Props.VM.Inside
import Verif.Props.VM.Lists
import Verif.Props.VM.Lockstep
import Verif.Props.VM.Nesting
import Verif.Props.VM.Numbers
import Verif.Props.VM.Pairs
import Verif.Props.VM.Reset
import Verif.Props.VM.Safety
import Verif.Props.VM.Strings
import Verif.Props.VM.Truth
import Verif.Props.VM.UserTypes
import Verif.Props.VM.Vectors
