import Verif.Spec.Hygiene
import Verif.Model.Api
/-
  Specification: evaluation of the user's expressions in a statement, with side effects and panics. The
  order is that of the fields of the machine instruction: an immediate or a shift count first, then the
  register operand, then the operand that may be in memory; in an address the base, the displacement, the
  index.
-/

namespace Spec
open Monoasm

/-- Code of the user: it returns or panics (`none`), and changes the world. -/
def W (ω α : Type) : Type := ω → Option α × ω

instance {ω : Type} : Monad (W ω) where
  pure a := fun w => (some a, w)
  bind x f := fun w => match x w with
    | (some a, w') => f a w'
    | (none, w') => (none, w')

section
variable {ε lam ω γ : Type} (U : User ε lam ω)

/-- Value of an expression in the scope of the user. -/
def ev (e : ε) : W ω V := fun w => U.value e userScope w

/-- The label that a variable holds. -/
def evLabel (l : lam) : DestLabel := U.label l userScope

def evReg : Register ε → W ω (Register V)
  | .reg n => pure (.reg n)
  | .expr e => do let v ← ev U e; pure (.expr v)

def evXmm : XmmReg ε → W ω (XmmReg V)
  | .no n => pure (.no n)
  | .expr e => do let v ← ev U e; pure (.expr v)

def evDisp : MDisp ε lam → W ω (MDisp V DestLabel)
  | .imm d => pure (.imm d)
  | .expr n e => do let v ← ev U e; pure (.expr n v)
  | .label l => pure (.label (evLabel U l))

def evScale : MScale ε → W ω (MScale V)
  | .none => pure .none
  | .s1 k r => do let r ← evReg U r; pure (.s1 k r)

/-- Address: base, displacement, index. -/
def evInd (a : IndAddr ε lam) : W ω (IndAddr V DestLabel) := do
  let base ← evReg U a.base
  let disp ← evDisp U a.disp
  let scale ← evScale U a.scale
  pure ⟨base, scale, disp⟩

def evRm : RmOperand ε lam → W ω (RmOperand V DestLabel)
  | .reg r => do let r ← evReg U r; pure (.reg r)
  | .ind a => do let a ← evInd U a; pure (.ind a)

def evXm : XmOperand ε lam → W ω (XmOperand V DestLabel)
  | .xmm x => do let x ← evXmm U x; pure (.xmm x)
  | .ind a => do let a ← evInd U a; pure (.ind a)

/-- Two-operand instruction: the source first, unless it is in memory. -/
def evArith (k : RmOperand V DestLabel → RmiOperand V DestLabel → γ) (a : RmOperand ε lam) :
    RmiOperand ε lam → W ω γ
  | .imm i => do let v ← ev U i; let a ← evRm U a; pure (k a (.imm v))
  | .reg r => do let r ← evReg U r; let a ← evRm U a; pure (k a (.reg r))
  | .ind b => do let a ← evRm U a; let b ← evInd U b; pure (k a (.ind b))

/-- Shifts and tests: the source first. -/
def evShift (k : RmOperand V DestLabel → RiOperand V → γ) (a : RmOperand ε lam) :
    RiOperand ε → W ω γ
  | .imm i => do let v ← ev U i; let a ← evRm U a; pure (k a (.imm v))
  | .reg r => do let r ← evReg U r; let a ← evRm U a; pure (k a (.reg r))

/-- Register and register or memory: from left to right. -/
def evRegRm (k : Register V → RmOperand V DestLabel → γ) (r : Register ε) (a : RmOperand ε lam) :
    W ω γ := do
  let r ← evReg U r
  let a ← evRm U a
  pure (k r a)

/-- Floating point register and floating point register or memory: from left to right. -/
def evSse (k : XmmReg V → XmOperand V DestLabel → γ) (x : XmmReg ε) (a : XmOperand ε lam) :
    W ω γ := do
  let x ← evXmm U x
  let a ← evXm U a
  pure (k x a)

def evOne (k : RmOperand V DestLabel → γ) (a : RmOperand ε lam) : W ω γ := do
  let a ← evRm U a
  pure (k a)

def evDest (k : Dest V DestLabel → γ) : Dest ε lam → W ω γ
  | .reg n => pure (k (.reg n))
  | .rel l => pure (k (.rel (evLabel U l)))
  | .disp e => do let v ← ev U e; pure (k (.disp v))
  | .ind a => do let a ← evInd U a; pure (k (.ind a))

/-- `movq`. A register that is loaded with an immediate is evaluated twice. -/
def evMovq (op1 op2 : MovOperand ε lam) : W ω (Inst V DestLabel) :=
  match op2 with
  | .imm i sz => match op1 with
    | .reg a => do let v ← ev U i; let _ ← evReg U a; let a ← evReg U a; pure (.Movq (.reg a) (.imm v sz))
    | .ind a => do let v ← ev U i; let a ← evInd U a; pure (.Movq (.ind a) (.imm v sz))
    | .xmm a => do let v ← ev U i; let a ← evXmm U a; pure (.Movq (.xmm a) (.imm v sz))
    | .imm j sz' => do let v ← ev U i; let j ← ev U j; pure (.Movq (.imm j sz') (.imm v sz))
  | .reg b => match op1 with
    | .reg a => do let b ← evReg U b; let a ← evReg U a; pure (.Movq (.reg a) (.reg b))
    | .ind a => do let b ← evReg U b; let a ← evInd U a; pure (.Movq (.ind a) (.reg b))
    | .xmm a => do let b ← evReg U b; let a ← evXmm U a; pure (.Movq (.xmm a) (.reg b))
    | .imm j sz => do let b ← evReg U b; let j ← ev U j; pure (.Movq (.imm j sz) (.reg b))
  | .xmm b => match op1 with
    | .reg a => do let a ← evReg U a; let b ← evXmm U b; pure (.Movq (.reg a) (.xmm b))
    | .ind a => do let b ← evXmm U b; let a ← evInd U a; pure (.Movq (.ind a) (.xmm b))
    | .xmm a => do let a ← evXmm U a; let b ← evXmm U b; pure (.Movq (.xmm a) (.xmm b))
    | .imm j sz => do let b ← evXmm U b; let j ← ev U j; pure (.Movq (.imm j sz) (.xmm b))
  | .ind b => match op1 with
    | .reg a => do let a ← evReg U a; let b ← evInd U b; pure (.Movq (.reg a) (.ind b))
    | .ind a => do let b ← evInd U b; let a ← evInd U a; pure (.Movq (.ind a) (.ind b))
    | .xmm a => do let a ← evXmm U a; let b ← evInd U b; pure (.Movq (.xmm a) (.ind b))
    | .imm j sz => do let b ← evInd U b; let j ← ev U j; pure (.Movq (.imm j sz) (.ind b))

def evMovsd : XmOperand ε lam → XmOperand ε lam → W ω (Inst V DestLabel)
  | .xmm x, b => do let x ← evXmm U x; let b ← evXm U b; pure (.Movsd (.xmm x) b)
  | .ind a, b => do let b ← evXm U b; let a ← evInd U a; pure (.Movsd (.ind a) b)

def evXchg (sz : OperandSize) : RmOperand ε lam → RmOperand ε lam → W ω (Inst V DestLabel)
  | .ind a, b => do let b ← evRm U b; let a ← evInd U a; pure (.Xchg sz (.ind a) b)
  | .reg a, b => do let a ← evReg U a; let b ← evRm U b; pure (.Xchg sz (.reg a) b)

def evRmi : RmiOperand ε lam → W ω (RmiOperand V DestLabel)
  | .imm i => do let v ← ev U i; pure (.imm v)
  | .reg r => do let r ← evReg U r; pure (.reg r)
  | .ind a => do let a ← evInd U a; pure (.ind a)

/-- Evaluation of a statement: the statement with values. -/
def evaluate : Inst ε lam → W ω (Inst V DestLabel)
  | .Label l => pure (.Label (evLabel U l))
  | .F64 v => pure (.F64 v)
  | .I64 v => pure (.I64 v)
  | .Movq a b => evMovq U a b
  | .Movl a b => evArith U .Movl a b
  | .Movw a b => evArith U .Movw a b
  | .Movb a b => evArith U .Movb a b
  | .Movsxl a b => evRegRm U .Movsxl a b
  | .Movzxw a b => evRegRm U .Movzxw a b
  | .Movsxw a b => evRegRm U .Movsxw a b
  | .Movzxb a b => evRegRm U .Movzxb a b
  | .Movsxb a b => evRegRm U .Movsxb a b
  | .Add sz a b => evArith U (.Add sz) a b
  | .Or sz a b => evArith U (.Or sz) a b
  | .Adc sz a b => evArith U (.Adc sz) a b
  | .Sbb sz a b => evArith U (.Sbb sz) a b
  | .And sz a b => evArith U (.And sz) a b
  | .Sub sz a b => evArith U (.Sub sz) a b
  | .Xor sz a b => evArith U (.Xor sz) a b
  | .Cmp sz a b => evArith U (.Cmp sz) a b
  | .Xchg sz a b => evXchg U sz a b
  | .Negq a => evOne U .Negq a
  | .Shl sz a b => evShift U (.Shl sz) a b
  | .Shr sz a b => evShift U (.Shr sz) a b
  | .Sal sz a b => evShift U (.Sal sz) a b
  | .Sar sz a b => evShift U (.Sar sz) a b
  | .Rol sz a b => evShift U (.Rol sz) a b
  | .Ror sz a b => evShift U (.Ror sz) a b
  | .Imul a b => do let a ← evRmi U a; let b ← evRmi U b; pure (.Imul a b)
  | .Idiv a => evOne U .Idiv a
  | .Idivl a => evOne U .Idivl a
  | .Div a => evOne U .Div a
  | .Divl a => evOne U .Divl a
  | .Lea a b => do let a ← evRm U a; let b ← evRm U b; pure (.Lea a b)
  | .Testq a b => evShift U .Testq a b
  | .Testb a b => evShift U .Testb a b
  | .Setcc c a => evOne U (.Setcc c) a
  | .Cmovcc sz c a b => evRegRm U (.Cmovcc sz c) a b
  | .Cqo => pure .Cqo
  | .Cdq => pure .Cdq
  | .Movsd a b => evMovsd U a b
  | .Addsd a b => evSse U .Addsd a b
  | .Subsd a b => evSse U .Subsd a b
  | .Mulsd a b => evSse U .Mulsd a b
  | .Divsd a b => evSse U .Divsd a b
  | .Xorps a b => evSse U .Xorps a b
  | .UComIsd a b => evSse U .UComIsd a b
  | .Minsd a b => evSse U .Minsd a b
  | .Maxsd a b => evSse U .Maxsd a b
  | .Andpd a b => evSse U .Andpd a b
  | .Xorpd a b => evSse U .Xorpd a b
  | .Roundpd a b e => do let a ← evXmm U a; let b ← evXm U b; let v ← ev U e; pure (.Roundpd a b v)
  | .Cvtsi2sdq a b => do let a ← evXmm U a; let b ← evRm U b; pure (.Cvtsi2sdq a b)
  | .Cvttsd2siq a b => do let a ← evReg U a; let b ← evXm U b; pure (.Cvttsd2siq a b)
  | .Sqrtpd a b => evSse U .Sqrtpd a b
  | .Sqrtsd a b => evSse U .Sqrtsd a b
  | .Pushq a => evOne U .Pushq a
  | .Popq a => evOne U .Popq a
  | .Jmp d => evDest U .Jmp d
  | .Jcc c l => pure (.Jcc c (evLabel U l))
  | .Call d => evDest U .Call d
  | .Leave => pure .Leave
  | .Ret => pure .Ret
  | .Syscall => pure .Syscall
  | .Lzcnt sz a b => evRegRm U (.Lzcnt sz) a b
  | .Tzcnt sz a b => evRegRm U (.Tzcnt sz) a b
  | .Popcnt sz a b => evRegRm U (.Popcnt sz) a b
  | .Int3 => pure .Int3

/-- The macro call assembles the statements one after the other, each with the values that its
    expressions have when they are evaluated: from code memory `s` and world `w` to `s'` and `w'`. -/
inductive Assembles : List (Inst ε lam) → JitMemory → ω → JitMemory → ω → Prop where
  | done {s w} : Assembles [] s w s w
  | next {i is j s w s1 w1 s2 w2} : evaluate U i w = (some j, w1) → (Op.inst j).run s = .ok () s1 →
      Assembles is s1 w1 s2 w2 → Assembles (i :: is) s w s2 w2

end

section
variable {ε lam ω : Type}

/-- Evaluating the register changes nothing (so that it has the same value when it is evaluated again); in
    particular if the register is written as a number or a name. -/
def Steady (U : User ε lam ω) (r : Register ε) : Prop := ∀ w, (evReg U r w).2 = w

/-- The form of the instruction is chosen by a register that may be another one when it is evaluated again
    afterwards. -/
def Unsettled (U : User ε lam ω) : Inst ε lam → Prop
  | .Xchg _ (.reg a) (.reg b) => ¬ (Steady U a ∧ Steady U b)
  | .Testq (.reg a) (.imm _) => ¬ Steady U a
  | .Testb (.reg a) (.imm _) => ¬ Steady U a
  | _ => False

/-- `roundpd`: the immediate is evaluated after the rest of the instruction was emitted. -/
def IsRoundpd : Inst ε lam → Prop
  | .Roundpd _ _ _ => True
  | _ => False

/-- What a panic in an expression leaves behind: nothing, or the first byte of the instruction. -/
def Stray (s s' : JitMemory) : Prop := s' = s ∨ ∃ b, JitMemory.emitb b s = .ok () s'

/-- What a panic in the immediate of `roundpd` leaves behind: all but the last byte of the instruction (or
    as much of it as there was room for). -/
def Half (s s' : JitMemory) : Prop :=
  ∃ x a, (∀ v, (Op.inst (.Roundpd x a v)).run s = JitMemory.emitb (v.setWidth 8) s')
    ∨ ∃ p, ∀ v, (Op.inst (.Roundpd x a v)).run s = .panic p s'

end
end Spec
