import Verif.Model.Parse
import Verif.Spec.X86
/-
  Specification: the assembly language of the macro, as a grammar on token sequences, and the
  statement each sentence denotes. Written from README.md and the usual names of registers,
  instructions and conditions; it does not mention the parser (only the type of token trees and of
  expression parsers of Model/Parse.lean).
-/

namespace Spec
open Monoasm

variable (X : RustExpr)

/-- Assumption on the expression parser (`syn`): it takes a prefix of its input. -/
def Takes : Prop := ∀ ts e rest, X ts = some (e, rest) → ts = e ++ rest

/-- `e` is a Rust expression. -/
def IsExpr (e : List Tok) : Prop := X e = some (e, [])

/-- An expression parser for examples: takes everything before the first comma, if anything. -/
def exExpr : RustExpr := fun ts =>
  let p : Tok → Bool := fun t => match t with | .punct c => c ≠ ',' | _ => true
  match ts.takeWhile p with
  | [] => none
  | e => some (e, ts.dropWhile p)

theorem takes_exExpr : Takes exExpr := by
  intro ts e rest h
  simp only [exExpr] at h
  split at h
  · cases h
  · cases h
    exact (List.takeWhile_append_dropWhile).symm

/-- Names of the registers, by number. -/
def regNames : List String :=
  ["rax", "rcx", "rdx", "rbx", "rsp", "rbp", "rsi", "rdi", "r8", "r9", "r10", "r11", "r12", "r13", "r14", "r15", "rip"]

/-- The identifier `s` is, up to case, the name of register number `n`; `cl` is `rcx`. -/
def RegName (s : String) (n : BitVec 8) : Prop :=
  regNames[n.toNat]? = some (lowercase s) ∨ (lowercase s = "cl" ∧ n = 1)

/-- General register operands: `rax`, `R(e)`. -/
inductive RegSyn : Register (List Tok) → List Tok → Prop where
  | name {s n} : RegName s n → RegSyn (.reg n) [.ident s]
  | expr {e} : IsExpr X e → RegSyn (.expr e) [.ident "R", .group .paren e]

/-- `s` is not the beginning of a register operand. -/
def NotReg (s : String) : Prop := s ≠ "R" ∧ ∀ n, ¬ RegName s n

/-- Decimal numerals with possibly leading zeroes. -/
def Numeral (s : String) (n : Nat) : Prop :=
  s.toList ≠ [] ∧ (∀ c ∈ s.toList, c.isDigit) ∧ n = s.toList.foldl (fun n c => 10 * n + (c.toNat - 48)) 0

/-- xmm register operands: `xmm0`, `xmm(e)`. -/
inductive XmmSyn : XmmReg (List Tok) → List Tok → Prop where
  | name {s n} : Numeral s n → n < 16 → XmmSyn (.no (BitVec.ofNat 8 n)) [.ident ("xmm" ++ s)]
  | expr {e} : XmmSyn (.expr e) [.ident "xmm", .group .paren e]

/-- Integer literals with an optional minus sign. -/
inductive LitSyn : Int → String → List Tok → Prop where
  | pos {n : Nat} {suf} : LitSyn n suf [.int n suf]
  | neg {n : Nat} {suf} : LitSyn (-n) suf [.punct '-', .int n suf]

/-- Signed displacement in an address: `+ 8`, `- 8`, `+ (e)`, `- (e)`, `+ l`. A label names a place:
    the sign before it has no meaning. -/
inductive DispSyn : MDisp (List Tok) String → List Tok → Prop where
  | plus {n suf ts} : LitSyn n suf ts → -2147483648 ≤ n → n ≤ 2147483647 → DispSyn (.imm (BitVec.ofInt 32 n)) (.punct '+' :: ts)
  | minus {n suf ts} : LitSyn n suf ts → -2147483648 ≤ n → n ≤ 2147483647 → DispSyn (.imm (BitVec.ofInt 32 (-n))) (.punct '-' :: ts)
  | plusExpr {e} : IsExpr X e → DispSyn (.expr false e) [.punct '+', .group .paren e]
  | minusExpr {e} : IsExpr X e → DispSyn (.expr true e) [.punct '-', .group .paren e]
  | plusLabel {l} : DispSyn (.label l) [.punct '+', .ident l]
  | minusLabel {l} : DispSyn (.label l) [.punct '-', .ident l]

/-- Nothing stands for displacement 0. -/
inductive OptDispSyn : MDisp (List Tok) String → List Tok → Prop where
  | none : OptDispSyn (.imm 0) []
  | some {d ts} : DispSyn X d ts → OptDispSyn d ts

/-- Scale factors: `* 1`, `* 2`, `* 4`, `* 8`; nothing stands for 1. The scale is the binary
    logarithm of the factor. -/
inductive ScaleSyn : BitVec 8 → List Tok → Prop where
  | none : ScaleSyn 0 []
  | some {k : BitVec 8} {suf} : k < 4 → ScaleSyn k [.punct '*', .int (2 ^ k.toNat) suf]

/-- Contents of the brackets of a memory operand. -/
inductive AddrSyn : IndAddr (List Tok) String → List Tok → Prop where
  | disp {b d tb td} : RegSyn X b tb → OptDispSyn X d td →
      (∀ l, td = [.punct '+', .ident l] → NotReg l) → AddrSyn ⟨b, .none, d⟩ (tb ++ td)
  | index {b i k d tb ti tk td} : RegSyn X b tb → RegSyn X i ti → ScaleSyn k tk → OptDispSyn X d td →
      AddrSyn ⟨b, .s1 k i, d⟩ (tb ++ .punct '+' :: (ti ++ tk ++ td))

/-- The contents of the brackets before the displacement: base register and index. -/
inductive Front : Register (List Tok) → MScale (List Tok) → List Tok → Prop where
  | base {b tb} : RegSyn X b tb → Front b .none tb
  | index {b i k tb ti tk} : RegSyn X b tb → RegSyn X i ti → ScaleSyn k tk →
      Front b (.s1 k i) (tb ++ .punct '+' :: (ti ++ tk))

/-- Immediate operands: a literal without sign, or an expression in parentheses. -/
inductive ImmSyn : List Tok → List Tok → Prop where
  | lit {n suf} : ImmSyn [.int n suf] [.int n suf]
  | expr {e} : ImmSyn e [.group .paren e]

inductive MemSyn : IndAddr (List Tok) String → List Tok → Prop where
  | mk {a ts} : AddrSyn X a ts → MemSyn a [.group .bracket ts]

def RmSyn : RmOperand (List Tok) String → List Tok → Prop
  | .reg r => RegSyn X r
  | .ind a => MemSyn X a

def RmiSyn : RmiOperand (List Tok) String → List Tok → Prop
  | .imm i => ImmSyn i
  | .reg r => RegSyn X r
  | .ind a => MemSyn X a

def RiSyn : RiOperand (List Tok) → List Tok → Prop
  | .imm i => ImmSyn i
  | .reg r => RegSyn X r

def XmSyn : XmOperand (List Tok) String → List Tok → Prop
  | .xmm x => XmmSyn x
  | .ind a => MemSyn X a

/-- `qword` before an immediate asks for the 64-bit form of `movq`. -/
def MovSyn : MovOperand (List Tok) String → List Tok → Prop
  | .imm i none => ImmSyn i
  | .imm i (some sz) => fun ts => sz = .QWORD ∧ ∃ ts', ts = .ident "qword" :: ts' ∧ ImmSyn i ts'
  | .reg r => RegSyn X r
  | .xmm x => XmmSyn x
  | .ind a => MemSyn X a

/-- Destinations of `jmp` and `call`: a register, a label, a distance `(e)`, a memory operand. -/
inductive DestSyn : Dest (List Tok) String → List Tok → Prop where
  | reg {s n} : RegName s n → DestSyn (.reg n) [.ident s]
  | rel {l} : (∀ n, ¬ RegName l n) → DestSyn (.rel l) [.ident l]
  | disp {e} : DestSyn (.disp e) [.group .paren e]
  | ind {a ts} : MemSyn X a ts → DestSyn (.ind a) ts

def LabelSyn (l : String) (ts : List Tok) : Prop := ts = [.ident l]

/-- Float literals with an optional sign; the sign is the top bit. -/
inductive FloatSyn : BitVec 64 → List Tok → Prop where
  | pos {b} : FloatSyn b [.float b]
  | neg {b} : FloatSyn (b ^^^ 0x8000000000000000) [.punct '-', .float b]

/-- 64-bit integer literals -/
def I64Syn (v : BitVec 64) (ts : List Tok) : Prop :=
  ∃ n suf, LitSyn n suf ts ∧ -9223372036854775808 ≤ n ∧ n ≤ 9223372036854775807 ∧ v = BitVec.ofInt 64 n

/-- Letter for the operand size. -/
def suffix : OperandSize → String
  | .QWORD => "q" | .DWORD => "l" | .WORD => "w" | .BYTE => "b"

/-- Names of a condition. -/
def condNames : Cond → List String
  | .O => ["o"] | .No => ["no"]
  | .B => ["b", "c", "nae"] | .Ae => ["ae", "nc"]
  | .Eq => ["eq", "e", "z"] | .Ne => ["ne", "nz"]
  | .Be => ["be", "na"] | .A => ["a", "nbe"]
  | .S => ["s"] | .Ns => ["ns"]
  | .P => ["p", "pe"] | .Np => ["np", "po"]
  | .Lt => ["lt", "l", "nge"] | .Ge => ["ge", "nl"]
  | .Le => ["le", "ng"] | .Gt => ["gt", "g", "nle"]

/-- Spellings of the mnemonic of a statement. -/
def spellings {ε lam : Type} : Inst ε lam → List String
  | .Label _ => []
  | .F64 _ => ["dq"]
  | .I64 _ => ["dq"]
  | .Movq _ _ => ["movq"]
  | .Movl _ _ => ["movl"]
  | .Movw _ _ => ["movw"]
  | .Movb _ _ => ["movb"]
  | .Movsxl _ _ => ["movsxl"]
  | .Movzxw _ _ => ["movzxw"]
  | .Movsxw _ _ => ["movsxw"]
  | .Movzxb _ _ => ["movzxb"]
  | .Movsxb _ _ => ["movsxb"]
  | .Add sz _ _ => ["add" ++ suffix sz]
  | .Sub sz _ _ => ["sub" ++ suffix sz]
  | .Adc sz _ _ => ["adc" ++ suffix sz]
  | .Sbb sz _ _ => ["sbb" ++ suffix sz]
  | .And sz _ _ => ["and" ++ suffix sz]
  | .Or sz _ _ => ["or" ++ suffix sz]
  | .Xor sz _ _ => ["xor" ++ suffix sz]
  | .Cmp sz _ _ => ["cmp" ++ suffix sz]
  | .Xchg sz _ _ => ["xchg" ++ suffix sz]
  | .Negq _ => ["negq"]
  -- `shll` is read as `sall` (the same instruction)
  | .Shl sz _ _ => if sz = .QWORD then ["shlq"] else []
  | .Shr sz _ _ => if sz = .QWORD ∨ sz = .DWORD then ["shr" ++ suffix sz] else []
  | .Sal sz _ _ => if sz = .QWORD then ["salq"] else if sz = .DWORD then ["sall", "shll"] else []
  | .Sar sz _ _ => if sz = .QWORD ∨ sz = .DWORD then ["sar" ++ suffix sz] else []
  | .Rol sz _ _ => if sz = .QWORD ∨ sz = .DWORD then ["rol" ++ suffix sz] else []
  | .Ror sz _ _ => if sz = .QWORD ∨ sz = .DWORD then ["ror" ++ suffix sz] else []
  | .Imul _ _ => ["imul"]
  | .Idiv _ => ["idiv", "idivq"]
  | .Idivl _ => ["idivl"]
  | .Div _ => ["div", "divq"]
  | .Divl _ => ["divl"]
  | .Lea _ _ => ["lea"]
  | .Testq _ _ => ["testq"]
  | .Testb _ _ => ["testb"]
  | .Setcc c _ => (condNames c).map ("set" ++ ·)
  | .Cmovcc sz c _ _ => if sz = .BYTE then [] else (condNames c).map ("cmov" ++ · ++ suffix sz)
  | .Cqo => ["cqo"]
  | .Cdq => ["cdq"]
  | .Movsd _ _ => ["movsd"]
  | .Addsd _ _ => ["addsd"]
  | .Subsd _ _ => ["subsd"]
  | .Mulsd _ _ => ["mulsd"]
  | .Divsd _ _ => ["divsd"]
  | .Xorps _ _ => ["xorps"]
  | .UComIsd _ _ => ["ucomisd"]
  | .Minsd _ _ => ["minsd"]
  | .Maxsd _ _ => ["maxsd"]
  | .Andpd _ _ => ["andpd"]
  | .Xorpd _ _ => ["xorpd"]
  | .Roundpd _ _ _ => ["roundpd"]
  | .Cvtsi2sdq _ _ => ["cvtsi2sdq"]
  | .Cvttsd2siq _ _ => ["cvttsd2siq"]
  | .Sqrtpd _ _ => ["sqrtpd"]
  | .Sqrtsd _ _ => ["sqrtsd"]
  | .Pushq _ => ["pushq"]
  | .Popq _ => ["popq"]
  | .Jmp _ => ["jmp"]
  -- `jl` and `jg` are not accepted
  | .Jcc c _ => ((condNames c).filter (fun n => n ≠ "l" ∧ n ≠ "g")).map ("j" ++ ·)
  | .Call _ => ["call"]
  | .Leave => ["leave"]
  | .Ret => ["ret"]
  | .Syscall => ["syscall"]
  | .Lzcnt sz _ _ => if sz = .QWORD ∨ sz = .DWORD then ["lzcnt" ++ suffix sz] else []
  | .Tzcnt sz _ _ => if sz = .QWORD ∨ sz = .DWORD then ["tzcnt" ++ suffix sz] else []
  | .Popcnt sz _ _ => if sz = .QWORD ∨ sz = .DWORD then ["popcnt" ++ suffix sz] else []
  | .Int3 => ["int3"]

/-- Syntax of the operands of a statement. -/
def operandSyn : TInst → List (List Tok → Prop)
  | .Label _ => []
  | .F64 b => [FloatSyn b]
  | .I64 v => [I64Syn v]
  | .Movq a b => [MovSyn X a, MovSyn X b]
  | .Movl a b => [RmSyn X a, RmiSyn X b]
  | .Movw a b => [RmSyn X a, RmiSyn X b]
  | .Movb a b => [RmSyn X a, RmiSyn X b]
  | .Movsxl a b => [RegSyn X a, RmSyn X b]
  | .Movzxw a b => [RegSyn X a, RmSyn X b]
  | .Movsxw a b => [RegSyn X a, RmSyn X b]
  | .Movzxb a b => [RegSyn X a, RmSyn X b]
  | .Movsxb a b => [RegSyn X a, RmSyn X b]
  | .Add _ a b => [RmSyn X a, RmiSyn X b]
  | .Sub _ a b => [RmSyn X a, RmiSyn X b]
  | .Adc _ a b => [RmSyn X a, RmiSyn X b]
  | .Sbb _ a b => [RmSyn X a, RmiSyn X b]
  | .And _ a b => [RmSyn X a, RmiSyn X b]
  | .Or _ a b => [RmSyn X a, RmiSyn X b]
  | .Xor _ a b => [RmSyn X a, RmiSyn X b]
  | .Cmp _ a b => [RmSyn X a, RmiSyn X b]
  | .Xchg _ a b => [RmSyn X a, RmSyn X b]
  | .Negq a => [RmSyn X a]
  | .Shl _ a b => [RmSyn X a, RiSyn X b]
  | .Shr _ a b => [RmSyn X a, RiSyn X b]
  | .Sal _ a b => [RmSyn X a, RiSyn X b]
  | .Sar _ a b => [RmSyn X a, RiSyn X b]
  | .Rol _ a b => [RmSyn X a, RiSyn X b]
  | .Ror _ a b => [RmSyn X a, RiSyn X b]
  | .Imul a b => [RmiSyn X a, RmiSyn X b]
  | .Idiv a => [RmSyn X a]
  | .Idivl a => [RmSyn X a]
  | .Div a => [RmSyn X a]
  | .Divl a => [RmSyn X a]
  | .Lea a b => [RmSyn X a, RmSyn X b]
  | .Testq a b => [RmSyn X a, RiSyn X b]
  | .Testb a b => [RmSyn X a, RiSyn X b]
  | .Setcc _ a => [RmSyn X a]
  | .Cmovcc _ _ a b => [RegSyn X a, RmSyn X b]
  | .Cqo => []
  | .Cdq => []
  | .Movsd a b => [XmSyn X a, XmSyn X b]
  | .Addsd a b => [XmmSyn a, XmSyn X b]
  | .Subsd a b => [XmmSyn a, XmSyn X b]
  | .Mulsd a b => [XmmSyn a, XmSyn X b]
  | .Divsd a b => [XmmSyn a, XmSyn X b]
  | .Xorps a b => [XmmSyn a, XmSyn X b]
  | .UComIsd a b => [XmmSyn a, XmSyn X b]
  | .Minsd a b => [XmmSyn a, XmSyn X b]
  | .Maxsd a b => [XmmSyn a, XmSyn X b]
  | .Andpd a b => [XmmSyn a, XmSyn X b]
  | .Xorpd a b => [XmmSyn a, XmSyn X b]
  | .Roundpd a b c => [XmmSyn a, XmSyn X b, ImmSyn c]
  | .Cvtsi2sdq a b => [XmmSyn a, RmSyn X b]
  | .Cvttsd2siq a b => [RegSyn X a, XmSyn X b]
  | .Sqrtpd a b => [XmmSyn a, XmSyn X b]
  | .Sqrtsd a b => [XmmSyn a, XmSyn X b]
  | .Pushq a => [RmSyn X a]
  | .Popq a => [RmSyn X a]
  | .Jmp d => [DestSyn X d]
  | .Jcc _ l => [LabelSyn l]
  | .Call d => [DestSyn X d]
  | .Leave => []
  | .Ret => []
  | .Syscall => []
  | .Lzcnt _ a b => [RegSyn X a, RmSyn X b]
  | .Tzcnt _ a b => [RegSyn X a, RmSyn X b]
  | .Popcnt _ a b => [RegSyn X a, RmSyn X b]
  | .Int3 => []

/-- Each of the token sequences satisfies the respective predicate. -/
def Each : List (List Tok → Prop) → List (List Tok) → Prop
  | [], [] => True
  | P :: Ps, ts :: tss => P ts ∧ Each Ps tss
  | _, _ => False

/-- Operands separated by commas. -/
def commas : List (List Tok) → List Tok
  | [] => []
  | [ts] => ts
  | ts :: tss => ts ++ .punct ',' :: commas tss

/-- Statements: `l:`, or a mnemonic with operands and `;`. -/
inductive InstSyn : TInst → List Tok → Prop where
  | label {l} : InstSyn (.Label l) [.ident l, .punct ':']
  | inst {i name tss} : name ∈ spellings i → Each (operandSyn X i) tss →
      InstSyn i (.ident name :: (commas tss ++ [.punct ';']))

/-- Sequences of statements. -/
inductive InstsSyn : List TInst → List Tok → Prop where
  | nil : InstsSyn [] []
  | cons {i is ts tss} : InstSyn X i ts → InstsSyn is tss → InstsSyn (i :: is) (ts ++ tss)

end Spec
