import Verif.Model.Expand
import Verif.Spec.Mentions
/-
  Vocabulary for macro hygiene: the expressions a statement contains, the names the expansion uses,
  and the evaluations made by a run.
-/

namespace Monoasm
variable {ε lam : Type}

def Register.exprs : Register ε → List ε
  | .reg _ => []
  | .expr e => [e]

def XmmReg.exprs : XmmReg ε → List ε
  | .no _ => []
  | .expr e => [e]

def MScale.exprs : MScale ε → List ε
  | .none => []
  | .s1 _ r => r.exprs

def MDisp.exprs : MDisp ε lam → List ε
  | .expr _ e => [e]
  | _ => []

def IndAddr.exprs (a : IndAddr ε lam) : List ε := a.base.exprs ++ a.scale.exprs ++ a.disp.exprs

def RmOperand.exprs : RmOperand ε lam → List ε
  | .reg r => r.exprs
  | .ind a => a.exprs

def RmiOperand.exprs : RmiOperand ε lam → List ε
  | .imm i => [i]
  | .reg r => r.exprs
  | .ind a => a.exprs

def RiOperand.exprs : RiOperand ε → List ε
  | .imm i => [i]
  | .reg r => r.exprs

def XmOperand.exprs : XmOperand ε lam → List ε
  | .xmm x => x.exprs
  | .ind a => a.exprs

def MovOperand.exprs : MovOperand ε lam → List ε
  | .imm i _ => [i]
  | .reg r => r.exprs
  | .xmm x => x.exprs
  | .ind a => a.exprs

def Dest.exprs : Dest ε lam → List ε
  | .disp e => [e]
  | .ind a => a.exprs
  | _ => []

/-- The Rust expressions written in a statement, from left to right. -/
def Inst.exprs : Inst ε lam → List ε
  | .Label _ => []
  | .F64 _ => []
  | .I64 _ => []
  | .Movq a b => a.exprs ++ b.exprs
  | .Movl a b => a.exprs ++ b.exprs
  | .Movw a b => a.exprs ++ b.exprs
  | .Movb a b => a.exprs ++ b.exprs
  | .Movsxl a b => a.exprs ++ b.exprs
  | .Movzxw a b => a.exprs ++ b.exprs
  | .Movsxw a b => a.exprs ++ b.exprs
  | .Movzxb a b => a.exprs ++ b.exprs
  | .Movsxb a b => a.exprs ++ b.exprs
  | .Add _ a b => a.exprs ++ b.exprs
  | .Sub _ a b => a.exprs ++ b.exprs
  | .Adc _ a b => a.exprs ++ b.exprs
  | .Sbb _ a b => a.exprs ++ b.exprs
  | .And _ a b => a.exprs ++ b.exprs
  | .Or _ a b => a.exprs ++ b.exprs
  | .Xor _ a b => a.exprs ++ b.exprs
  | .Cmp _ a b => a.exprs ++ b.exprs
  | .Xchg _ a b => a.exprs ++ b.exprs
  | .Negq a => a.exprs
  | .Shl _ a b => a.exprs ++ b.exprs
  | .Shr _ a b => a.exprs ++ b.exprs
  | .Sal _ a b => a.exprs ++ b.exprs
  | .Sar _ a b => a.exprs ++ b.exprs
  | .Rol _ a b => a.exprs ++ b.exprs
  | .Ror _ a b => a.exprs ++ b.exprs
  | .Imul a b => a.exprs ++ b.exprs
  | .Idiv a => a.exprs
  | .Idivl a => a.exprs
  | .Div a => a.exprs
  | .Divl a => a.exprs
  | .Lea a b => a.exprs ++ b.exprs
  | .Testq a b => a.exprs ++ b.exprs
  | .Testb a b => a.exprs ++ b.exprs
  | .Setcc _ a => a.exprs
  | .Cmovcc _ _ a b => a.exprs ++ b.exprs
  | .Cqo => []
  | .Cdq => []
  | .Movsd a b => a.exprs ++ b.exprs
  | .Addsd a b => a.exprs ++ b.exprs
  | .Subsd a b => a.exprs ++ b.exprs
  | .Mulsd a b => a.exprs ++ b.exprs
  | .Divsd a b => a.exprs ++ b.exprs
  | .Xorps a b => a.exprs ++ b.exprs
  | .UComIsd a b => a.exprs ++ b.exprs
  | .Minsd a b => a.exprs ++ b.exprs
  | .Maxsd a b => a.exprs ++ b.exprs
  | .Andpd a b => a.exprs ++ b.exprs
  | .Xorpd a b => a.exprs ++ b.exprs
  | .Roundpd a b e => a.exprs ++ b.exprs ++ [e]
  | .Cvtsi2sdq a b => a.exprs ++ b.exprs
  | .Cvttsd2siq a b => a.exprs ++ b.exprs
  | .Sqrtpd a b => a.exprs ++ b.exprs
  | .Sqrtsd a b => a.exprs ++ b.exprs
  | .Pushq a => a.exprs
  | .Popq a => a.exprs
  | .Jmp a => a.exprs
  | .Jcc _ _ => []
  | .Call a => a.exprs
  | .Leave => []
  | .Ret => []
  | .Syscall => []
  | .Lzcnt _ a b => a.exprs ++ b.exprs
  | .Tzcnt _ a b => a.exprs ++ b.exprs
  | .Popcnt _ a b => a.exprs ++ b.exprs
  | .Int3 => []

end Monoasm

namespace Spec
open Monoasm
variable {ε lam ω : Type}

/-- No name of the user is hidden: the scope in which the macro call stands. -/
def userScope : Hidden := fun _ => none

/-- The names that the expansion binds. -/
def reserved : List String := ["jit", "imm", "rm_op", "op1", "op2"]

/-- Expressions and label variables depend on hidden names only through the names they mention:
    `names e` are the identifiers in `e`, `lname l` is the identifier `l`. -/
structure Lexical (U : User ε lam ω) (names : ε → List String) (lname : lam → String) : Prop where
  value : ∀ e h h', (∀ x ∈ names e, h x = h' x) → U.value e h = U.value e h'
  label : ∀ l h h', h (lname l) = h' (lname l) → U.label l h = U.label l h'

/-- The statement mentions none of the reserved names. -/
def Avoids (names : ε → List String) (lname : lam → String) (i : Inst ε lam) : Prop :=
  (∀ e ∈ i.exprs, ∀ x ∈ names e, x ∉ reserved) ∧ ∀ l ∈ i.labels, lname l ∉ reserved

/-- The expressions evaluated, in order. -/
def evaluated (tr : List (Ev ε lam)) : List ε :=
  tr.filterMap fun | .expr e _ => some e | .label _ _ => none

/-- The evaluation happens as it would in the user's scope. -/
def InUserScope (U : User ε lam ω) : Ev ε lam → Prop
  | .expr e h => U.value e h = U.value e userScope
  | .label l h => U.label l h = U.label l userScope

/-- What a run did to the code memory. -/
def code {α : Type} : GRes ε lam ω α → Res α
  | .ok a st => .ok a st.jit
  | .panic e st => .panic e st.jit

/-- The evaluations made by a run. -/
def traceOf {α : Type} : GRes ε lam ω α → List (Ev ε lam)
  | .ok _ st => st.trace
  | .panic _ st => st.trace

/-- State in which the expansion of a call starts. -/
def start (s : JitMemory) (w : ω) : GState ε lam ω := ⟨s, userScope, w, []⟩

/-- The statements in which a register is written into the expansion more than once. -/
def Repeats : Inst ε lam → Prop
  | .Movq (.reg _) (.imm _ _) => True
  | .Xchg _ (.reg _) (.reg _) => True
  | .Testq (.reg _) (.imm _) => True
  | .Testb (.reg _) (.imm _) => True
  | _ => False

end Spec
