import Verif.Model.Api
import Verif.Model.Basic
import Verif.Model.Compile
import Verif.Model.Create
import Verif.Model.Display
import Verif.Model.Dump
import Verif.Model.Encode
import Verif.Model.Eval
import Verif.Model.Expand
import Verif.Model.Inst
import Verif.Model.Machine
import Verif.Model.Memory
import Verif.Model.Parse
import Verif.Model.Position
import Verif.Model.Protect
import Verif.Model.Splice
import Verif.Spec.Accept
import Verif.Spec.Blocks
import Verif.Spec.Capacity
import Verif.Spec.Classes
import Verif.Spec.Conditions
import Verif.Spec.Cpu
import Verif.Spec.Double
import Verif.Spec.Dump
import Verif.Spec.Edits
import Verif.Spec.Effects
import Verif.Spec.Evaluate
import Verif.Spec.Evolve
import Verif.Spec.Failed
import Verif.Spec.Fibo
import Verif.Spec.Grammar
import Verif.Spec.Host
import Verif.Spec.Hygiene
import Verif.Spec.Interleave
import Verif.Spec.Jump
import Verif.Spec.Leads
import Verif.Spec.Length
import Verif.Spec.Lifetime
import Verif.Spec.Link
import Verif.Spec.Listing
import Verif.Spec.Machine
import Verif.Spec.Meaning
import Verif.Spec.Mentions
import Verif.Spec.Move
import Verif.Spec.Names
import Verif.Spec.NoIndex
import Verif.Spec.Objects
import Verif.Spec.Operand
import Verif.Spec.Outside
import Verif.Spec.Parallel
import Verif.Spec.Past
import Verif.Spec.Position
import Verif.Spec.Print
import Verif.Spec.Program
import Verif.Spec.Progress
import Verif.Spec.Protect
import Verif.Spec.Ranges
import Verif.Spec.Readme
import Verif.Spec.Reduced
import Verif.Spec.Retarget
import Verif.Spec.Rewrite
import Verif.Spec.Runtime
import Verif.Spec.Rust
import Verif.Spec.RustRead
import Verif.Spec.Session
import Verif.Spec.Shown
import Verif.Spec.Simple
import Verif.Spec.Slots
import Verif.Spec.Source
import Verif.Spec.Swap
import Verif.Spec.Tests
import Verif.Spec.Text
import Verif.Spec.Trial
import Verif.Spec.X86
import Verif.Proofs.Accept
import Verif.Proofs.Address
import Verif.Proofs.Align
import Verif.Proofs.Alter
import Verif.Proofs.Appended
import Verif.Proofs.Assemble
import Verif.Proofs.Blocks
import Verif.Proofs.Bytes
import Verif.Proofs.Capacity
import Verif.Proofs.Conditions
import Verif.Proofs.Converse
import Verif.Proofs.Correct
import Verif.Proofs.Decode
import Verif.Proofs.Decode2
import Verif.Proofs.Decode3
import Verif.Proofs.Decode4
import Verif.Proofs.Decode5
import Verif.Proofs.Decode6
import Verif.Proofs.Double
import Verif.Proofs.Dump
import Verif.Proofs.Edits
import Verif.Proofs.Enc
import Verif.Proofs.Encoded
import Verif.Proofs.Evaluate
import Verif.Proofs.Evaluate2
import Verif.Proofs.Evaluate3
import Verif.Proofs.Evolve
import Verif.Proofs.Exec
import Verif.Proofs.Failed
import Verif.Proofs.Fibo
import Verif.Proofs.Fill
import Verif.Proofs.Finalize
import Verif.Proofs.Frame
import Verif.Proofs.Grow
import Verif.Proofs.History
import Verif.Proofs.Host
import Verif.Proofs.Hygiene
import Verif.Proofs.Hygiene2
import Verif.Proofs.Hygiene3
import Verif.Proofs.Hygiene4
import Verif.Proofs.Hygiene5
import Verif.Proofs.Idle
import Verif.Proofs.Interleave
import Verif.Proofs.Items
import Verif.Proofs.LabelAddr
import Verif.Proofs.Labels
import Verif.Proofs.Leads
import Verif.Proofs.Lifetime
import Verif.Proofs.Link
import Verif.Proofs.Listing
import Verif.Proofs.Live
import Verif.Proofs.Lower
import Verif.Proofs.Machine
import Verif.Proofs.Mentions
import Verif.Proofs.Move
import Verif.Proofs.Names
import Verif.Proofs.Objects
import Verif.Proofs.Order
import Verif.Proofs.Outside
import Verif.Proofs.PageLog
import Verif.Proofs.Parallel
import Verif.Proofs.Parse
import Verif.Proofs.Parse2
import Verif.Proofs.Parse3
import Verif.Proofs.Parse4
import Verif.Proofs.Past
import Verif.Proofs.Patch
import Verif.Proofs.Placing
import Verif.Proofs.Position
import Verif.Proofs.Print
import Verif.Proofs.Program
import Verif.Proofs.Progress
import Verif.Proofs.Protect
import Verif.Proofs.Ranges
import Verif.Proofs.Readme
import Verif.Proofs.Refer
import Verif.Proofs.Rename
import Verif.Proofs.Resolve
import Verif.Proofs.Retarget
import Verif.Proofs.Rewrite
import Verif.Proofs.RexZero
import Verif.Proofs.Round
import Verif.Proofs.Run
import Verif.Proofs.Rust
import Verif.Proofs.Rust2
import Verif.Proofs.RustRead
import Verif.Proofs.RustUser
import Verif.Proofs.Safe
import Verif.Proofs.SafeFin
import Verif.Proofs.Session
import Verif.Proofs.Shape
import Verif.Proofs.Shift
import Verif.Proofs.Simple
import Verif.Proofs.Slice
import Verif.Proofs.Spill
import Verif.Proofs.Swap
import Verif.Proofs.Tests
import Verif.Proofs.Text
import Verif.Proofs.Torn
import Verif.Proofs.Trace
import Verif.Proofs.Trial
import Verif.Proofs.Twin
import Verif.Proofs.WideIndex
import Verif.Props.C01
import Verif.Props.C02
import Verif.Props.C03
import Verif.Props.C04
import Verif.Props.C05
import Verif.Props.C06
import Verif.Props.C07
import Verif.Props.C08
import Verif.Props.C09
import Verif.Props.C10
import Verif.Props.C11
import Verif.Props.C12
import Verif.Props.C13
import Verif.Props.C14
import Verif.Props.C15
import Verif.Props.C16
import Verif.Props.C17
import Verif.Props.C18
import Verif.Props.C19
import Verif.Props.C20
import Verif.Props.C21
import Verif.Props.C22
import Verif.Props.C23
import Verif.Props.C24
import Verif.Props.C25
import Verif.Props.C26
import Verif.Props.C27
import Verif.Props.C28
import Verif.Props.C29
import Verif.Props.C30
import Verif.Props.C31
import Verif.Props.C32
import Verif.Props.C33
import Verif.Props.C34
import Verif.Props.C35
import Verif.Props.C36
import Verif.Props.C37
import Verif.Props.C38
import Verif.Props.C39
import Verif.Props.C40
import Verif.Props.C41
import Verif.Props.C42
import Verif.Props.C43
import Verif.Props.C44
import Verif.Props.C45
import Verif.Props.C46
import Verif.Props.C47
import Verif.Props.C48
import Verif.Props.C49
import Verif.Props.C50
import Verif.Props.C51
import Verif.Props.C52
import Verif.Props.C53
import Verif.Props.C54
import Verif.Props.C55
import Verif.Props.C56
import Verif.Props.C57
import Verif.Props.C58
import Verif.Props.C59
import Verif.Props.C60
import Verif.Props.C61
import Verif.Props.C62
import Verif.Props.C63
import Verif.Props.C64
import Verif.Props.C65
import Verif.Props.C66
import Verif.Props.C67
import Verif.Props.C68
import Verif.Props.C69
import Verif.Props.C70
import Verif.Props.C71
import Verif.Props.C72
import Verif.Props.C73
import Verif.Props.C74
import Verif.Props.C75
import Verif.Props.C76
import Verif.Props.C77
import Verif.Props.C78
import Verif.Props.C79
import Verif.Props.C80
