import Verif.Spec.Link
import Verif.Spec.Mentions
/-
  Vocabulary for stating when a statement is assembled and when it panics: the immediate operand
  of a statement and the width x86 has for it.
-/

namespace Spec
open Monoasm

/-- `v`, as a signed number, can be written with `n` bits. -/
def fits (n : Nat) (v : Val) : Prop := -(2 ^ (n - 1) : Int) ≤ v.toInt ∧ v.toInt < 2 ^ (n - 1)

instance (n v) : Decidable (fits n v) := by unfold fits; infer_instance

/-- Width of the immediate field of an instruction with operands of this size. -/
def immWidth : OperandSize → Nat
  | .QWORD => 32 | .DWORD => 32 | .WORD => 16 | .BYTE => 8

def rmiImm (n : Nat) : RmiOperand Val Nat → Option (Nat × Val)
  | .imm i => some (n, i)
  | _ => none

def riImm (n : Nat) : RiOperand Val → Option (Nat × Val)
  | .imm i => some (n, i)
  | _ => none

/-- The immediate operand of a statement with the width of the field that x86 has for it.
    (The mode operand of `roundpd` is not listed: its Rust type is `u8`.) -/
def imm : Inst Val Nat → Option (Nat × Val)
  | .Movq (.ind _) (.imm i _) => some (32, i)
  | .Movl _ b => rmiImm 32 b
  | .Movw _ b => rmiImm 16 b
  | .Movb _ b => rmiImm 8 b
  | .Add sz _ b => rmiImm (immWidth sz) b
  | .Sub sz _ b => rmiImm (immWidth sz) b
  | .Adc sz _ b => rmiImm (immWidth sz) b
  | .Sbb sz _ b => rmiImm (immWidth sz) b
  | .And sz _ b => rmiImm (immWidth sz) b
  | .Or sz _ b => rmiImm (immWidth sz) b
  | .Xor sz _ b => rmiImm (immWidth sz) b
  | .Cmp sz _ b => rmiImm (immWidth sz) b
  | .Shl _ _ b => riImm 8 b
  | .Shr _ _ b => riImm 8 b
  | .Sal _ _ b => riImm 8 b
  | .Sar _ _ b => riImm 8 b
  | .Rol _ _ b => riImm 8 b
  | .Ror _ _ b => riImm 8 b
  | .Testq _ b => riImm 32 b
  | .Testb _ b => riImm 8 b
  | .Call (.disp e) => some (32, e)
  | _ => none

/-- 16-bit ALU statement. -/
def aluWord : Inst Val Nat → Bool
  | .Add sz _ _ | .Sub sz _ _ | .Adc sz _ _ | .Sbb sz _ _ | .And sz _ _ | .Or sz _ _ | .Xor sz _ _
  | .Cmp sz _ _ => sz = .WORD
  | _ => false

/-- The immediate operand, if any, fits its field. -/
def ImmOk (i : Inst Val Nat) : Prop := ∀ n v, imm i = some (n, v) → fits n v

/-- All labels of the statement were created by this `JitMemory`. -/
def Known (s : JitMemory) (i : Inst Val Nat) : Prop := ∀ l, i.mentions l → l < s.labels.length

/-- The longest instruction that is assembled (12 bytes, C70) fits on the current page. -/
def Room (s : JitMemory) : Prop := cursor s s.page + 12 ≤ PAGE_SIZE

/-- The macro accepts the statement (expansion does not fail). -/
def Accepted (i : Inst Val Nat) : Prop := ∃ m, compile i = .ok m

/-- `i`, run in state `s`, panics with `e` and leaves state `s'`. -/
def Panics (i : Inst Val Nat) (s : JitMemory) (e : Panic) (s' : JitMemory) : Prop :=
  ∃ m, compile i = .ok m ∧ m s = .panic e s'

end Spec
