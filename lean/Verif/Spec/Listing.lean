import Verif.Spec.Operand
/-
  Vocabulary for sequences of statements.
-/

namespace Spec
open Monoasm

/-- One `monoasm!` call with the statements `is`, run in state `s`, returns normally in `s'`. -/
def RunsAll (is : List (Inst Val Nat)) (s s' : JitMemory) : Prop :=
  ∃ m, compileAll is = .ok m ∧ m s = .ok () s'

/-- A reading of the statements: the instruction that a statement stands for, given the distances of
    the labels from the end of its code. -/
abbrev Reading := (Nat → BitVec 64) → Inst Val Nat → Option X86.Instr

/-- What the statements are encoded as. This is not always what is written (`meaning`): `cvttsd2siq`
    is encoded as the conversion to 32 bits, and an operand `[rip + l]` of `roundpd` as `[rip + l + 1]`. -/
def encoded : Reading
  | rel, .Cvttsd2siq a b => do return .cvttf2si .sd .d (.gpr (← gpr a)) (← xm rel b)
  | rel, .Roundpd a b m => meaning (fun l => rel l + 1) (.Roundpd a b m)
  | rel, i => meaning rel i

/-- `Listing M la a bs is rest`: disassembling the bytes `bs` found at address `a`, with labels at the
    addresses `la`, one gets exactly the statements `is`, read as `M` says, and then the bytes `rest` remain. -/
inductive Listing (M : Reading) (la : Nat → Nat) : Nat → List Byte → List (Inst Val Nat) → List Byte → Prop where
  | nil (a bs) : Listing M la a bs [] bs
  /-- label statements have no code -/
  | label {a bs is rest} (l) : Listing M la a bs is rest → Listing M la a bs (.Label l :: is) rest
  /-- data statements -/
  | i64 {a bs is rest} (v) : Listing M la (a + 8) bs is rest →
      Listing M la a (littleEndian 8 v.toNat ++ bs) (.I64 v :: is) rest
  | f64 {a bs is rest} (v) : Listing M la (a + 8) bs is rest →
      Listing M la a (littleEndian 8 v.toNat ++ bs) (.F64 v :: is) rest
  /-- instructions; `n` is the length of the code -/
  | inst {a bs bs' i is rest I} (n) : X86.decode bs = some (I, bs') → bs.length = n + bs'.length →
      M (dist la (a + n)) i = some I → Listing M la (a + n) bs' is rest →
      Listing M la a bs (i :: is) rest

/-- Label, data, or an instruction that denotes a machine instruction. -/
def Meaningful (i : Inst Val Nat) : Prop :=
  Valid i ∨ (∃ l, i = .Label l) ∨ (∃ v, i = .I64 v) ∨ ∃ v, i = .F64 v

/-- In addition, not of the two kinds that are not encoded as written (C25, C33). -/
structure Ordinary (i : Inst Val Nat) : Prop where
  sort : Meaningful i
  round : ∀ a b m, i = .Roundpd a b m → b.labels = []
  cvtt : ∀ a b, i ≠ .Cvttsd2siq a b

end Spec
