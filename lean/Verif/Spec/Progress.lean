import Verif.Spec.Effects
import Verif.Spec.Leads
/-
  Specification: the ways in which the processor cannot execute an instruction (Intel SDM vol. 2,
  "Exceptions" sections; page faults and the processor's extensions being disabled are not modelled),
  or leaves the program.
-/

namespace X86

/-- A 16-byte operand in memory that is not aligned. -/
def Opd.misaligned (o : Opd) (next : BitVec 64) (d : Data) : Prop :=
  match o with
  | .mem a => ¬ (a.ea next d).toNat % 16 = 0
  | _ => False

/-- The instruction is not executed to its end in state `d`. -/
inductive Stops (next : BitVec 64) (d : Data) : Instr → Prop where
  /-- division by zero -/
  | div0 {sz o} : (o.read sz next d).toNat = 0 → Stops next d (.un .div sz o)
  | idiv0 {sz o} : (o.read sz next d).toNat = 0 → Stops next d (.un .idiv sz o)
  /-- the quotient does not fit -/
  | div {sz o} : 2 ^ sz.bits ≤ (d.wide sz.bits).toNat / (o.read sz next d).toNat → Stops next d (.un .div sz o)
  | idivLow {sz o} : (d.wide sz.bits).toInt.tdiv (o.read sz next d).toInt < -2 ^ (sz.bits - 1) → Stops next d (.un .idiv sz o)
  | idivHigh {sz o} : 2 ^ (sz.bits - 1) ≤ (d.wide sz.bits).toInt.tdiv (o.read sz next d).toInt → Stops next d (.un .idiv sz o)
  /-- misaligned operand -/
  | logic {op ty a b} : b.misaligned next d → Stops next d (.flogic op ty a b)
  | packed {op a b} : b.misaligned next d → Stops next d (.fop op .pd a b)
  | round {a b m} : b.misaligned next d → Stops next d (.round .pd a b m)
  /-- call of the operating system, or of the debugger -/
  | syscall : Stops next d .syscall
  | int3 : Stops next d .int3

/-- `n` steps of the processor, through states for which `P` holds. -/
inductive Through (P : State → Prop) (E : Effect) : Nat → State → State → Prop where
  | zero {s} : P s → Through P E 0 s s
  | succ {n s s' s''} : P s → Step E s s' → Through P E n s' s'' → Through P E (n + 1) s s''

end X86

namespace Spec
open Monoasm

/-- Statements whose instruction stops in some states. -/
def mayStop : Inst Val Nat → Bool
  | .Idiv _ => true
  | .Idivl _ => true
  | .Div _ => true
  | .Divl _ => true
  | .Xorps _ (.ind _) => true
  | .Andpd _ (.ind _) => true
  | .Xorpd _ (.ind _) => true
  | .Sqrtpd _ (.ind _) => true
  | .Roundpd _ (.ind _) _ => true
  | .Syscall => true
  | .Int3 => true
  | _ => false

/-- The processor is at the code of a statement that is not a label or data, and the code has not been
    overwritten. -/
def AtStatement (base : Nat) (mem : Nat → Byte) (pre : List NewCall) (is : List (Inst Val Nat)) (s : X86.State) : Prop :=
  ∃ j i, is[j]? = some i ∧ placedLabel i = none ∧ isData i = false ∧ s.rip = codeAt base mem pre is j
    ∧ Intact base mem (simple pre is) (pre.length + j) s.data

end Spec
