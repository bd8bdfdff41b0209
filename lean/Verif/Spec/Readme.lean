import Verif.Spec.Grammar
import Verif.Spec.Classes
import Verif.Model.Eval
/-
  Specification: the instructions listed in README.md ("supported instructions"), each with its
  natural operand form.
-/

namespace Spec
open Monoasm

/-- Operand forms. -/
inductive Form where
  | none | reg | regReg | regImm | regMem | xmmXmm | xmmReg | label | int
deriving DecidableEq

def gprNames : List String := regNames.take 16
def xmmNames : List String :=
  ["xmm0", "xmm1", "xmm2", "xmm3", "xmm4", "xmm5", "xmm6", "xmm7", "xmm8", "xmm9", "xmm10", "xmm11", "xmm12", "xmm13", "xmm14", "xmm15"]

/-- Operands of the form. -/
inductive Form.Text : Form → List Tok → Prop where
  | none : Text .none []
  | reg {r} : r ∈ gprNames → Text .reg [.ident r]
  | regReg {r s} : r ∈ gprNames → s ∈ gprNames → Text .regReg [.ident r, .punct ',', .ident s]
  | regImm {r n suf} : r ∈ gprNames → Text .regImm [.ident r, .punct ',', .int n suf]
  | regMem {r s} : r ∈ gprNames → s ∈ gprNames → Text .regMem [.ident r, .punct ',', .group .bracket [.ident s]]
  | xmmXmm {x y} : x ∈ xmmNames → y ∈ xmmNames → Text .xmmXmm [.ident x, .punct ',', .ident y]
  | xmmReg {x r} : x ∈ xmmNames → r ∈ gprNames → Text .xmmReg [.ident x, .punct ',', .ident r]
  /-- any name that is not a register name -/
  | label {l} : (∀ n, ¬ RegName l n) → Text .label [.ident l]
  | int {n : Nat} {suf} : n < 2 ^ 63 → Text .int [.int n suf]

/-- README.md, "supported instructions". -/
def readme : List (String × Form) :=
  -- quad word operations
  [("movq", .regReg), ("lea", .regMem), ("addq", .regReg), ("orq", .regReg), ("adcq", .regReg), ("sbbq", .regReg),
   ("andq", .regReg), ("subq", .regReg), ("xorq", .regReg), ("cmpq", .regReg), ("xchgq", .regReg), ("negq", .reg),
   ("imul", .regReg), ("idiv", .reg), ("div", .reg), ("cqo", .none),
   ("shlq", .regImm), ("shrq", .regImm), ("salq", .regImm), ("sarq", .regImm), ("rolq", .regImm), ("rorq", .regImm),
   ("testq", .regReg), ("lzcntq", .regReg), ("tzcntq", .regReg), ("popcntq", .regReg),
   ("seteq", .reg), ("setne", .reg), ("setgt", .reg), ("setge", .reg), ("setlt", .reg), ("setle", .reg), ("seta", .reg),
   ("setae", .reg), ("setb", .reg), ("setbe", .reg),
   -- double word operations
   ("movl", .regReg), ("movsxl", .regReg), ("addl", .regReg), ("orl", .regReg), ("adcl", .regReg), ("sbbl", .regReg),
   ("andl", .regReg), ("subl", .regReg), ("xorl", .regReg), ("cmpl", .regReg), ("xchgl", .regReg),
   -- word operations
   ("movw", .regReg), ("movzxw", .regReg), ("movsxw", .regReg), ("addw", .regReg), ("orw", .regReg), ("adcw", .regReg),
   ("sbbw", .regReg), ("andw", .regReg), ("subw", .regReg), ("xorw", .regReg), ("cmpw", .regReg), ("xchgw", .regReg),
   -- byte operations
   ("movb", .regReg), ("movzxb", .regReg), ("movsxb", .regReg), ("addb", .regReg), ("orb", .regReg), ("adcb", .regReg),
   ("sbbb", .regReg), ("andb", .regReg), ("subb", .regReg), ("xorb", .regReg), ("cmpb", .regReg), ("xchgb", .regReg),
   ("testb", .regReg),
   -- conditional move operations
   ("cmovbq", .regReg), ("cmovaeq", .regReg), ("cmoveqq", .regReg), ("cmovneq", .regReg), ("cmovbeq", .regReg),
   ("cmovaq", .regReg), ("cmovsq", .regReg), ("cmovnsq", .regReg), ("cmovltq", .regReg), ("cmovgeq", .regReg),
   ("cmovleq", .regReg), ("cmovgtq", .regReg),
   -- floating point operations
   ("movsd", .xmmXmm), ("addsd", .xmmXmm), ("subsd", .xmmXmm), ("mulsd", .xmmXmm), ("divsd", .xmmXmm), ("xorps", .xmmXmm),
   ("cvtsi2sdq", .xmmReg), ("ucomisd", .xmmXmm), ("sqrtpd", .xmmXmm), ("sqrtsd", .xmmXmm),
   -- stack operations
   ("pushq", .reg), ("popq", .reg),
   -- call/branch
   ("call", .label), ("ret", .none), ("jmp", .label), ("jne", .label), ("jeq", .label), ("jgt", .label), ("jge", .label),
   ("jlt", .label), ("jle", .label), ("ja", .label), ("jae", .label), ("jb", .label), ("jbe", .label),
   -- misc, constant data
   ("syscall", .none), ("leave", .none), ("int3", .none), ("dq", .int)]

/-- With all operands of the form, the mnemonic is parsed, accepted by the code generator, and denotes
    a machine instruction (or data), whatever the values of the variables. -/
def Works (X : RustExpr) (s : String) (f : Form) : Prop :=
  ∀ ts, f.Text ts → ∃ i : TInst, parseInst X (.ident s :: (ts ++ [.punct ';'])) = .ok (i, [])
    ∧ ∀ ρ σ, Accepted (i.map ρ σ) ∧ (Valid (i.map ρ σ) ∨ ∃ v, i = .I64 v)

end Spec
