import Verif.Spec.Accept
/-
  Groups of statements, and what it means for a statement to be assembled correctly.
-/

namespace Spec
open Monoasm

/-- The statement denotes an x86 instruction (wherever the labels are). -/
def Valid (i : Inst Val Nat) : Prop := ∃ rel I, meaning rel i = some I

/-- The statement is accepted by the macro whenever it denotes an instruction; it is then assembled
    if its immediate fits, its labels exist and there is room; and the code decodes to what the
    statement denotes. -/
structure Correct (i : Inst Val Nat) : Prop where
  accepted : Valid i → Accepted i
  assembles : ∀ s, Valid i → ImmOk i → Known s i → Room s → ∃ s', Runs i s s'
  faithful : Faithful i

/-- add/or/adc/sbb/and/sub/xor/cmp -/
inductive IsAlu : Inst Val Nat → Prop where
  | add (sz a b) : IsAlu (.Add sz a b)
  | or (sz a b) : IsAlu (.Or sz a b)
  | adc (sz a b) : IsAlu (.Adc sz a b)
  | sbb (sz a b) : IsAlu (.Sbb sz a b)
  | and (sz a b) : IsAlu (.And sz a b)
  | sub (sz a b) : IsAlu (.Sub sz a b)
  | xor (sz a b) : IsAlu (.Xor sz a b)
  | cmp (sz a b) : IsAlu (.Cmp sz a b)

/-- mov, movsx, movzx, lea, xchgq, push, pop, cmov. (An explicit size on the immediate of `movq` is
    possible with a register destination only, and only `QWORD`, see parse in inst.rs.) -/
inductive IsMove : Inst Val Nat → Prop where
  | movq (a b) (h : ∀ m i z, a = .ind m → b = .imm i z → z = none)
      (h' : ∀ r i z, a = .reg r → b = .imm i (some z) → z = .QWORD) : IsMove (.Movq a b)
  | movl (a b) : IsMove (.Movl a b)
  | movw (a b) : IsMove (.Movw a b)
  | movb (a b) : IsMove (.Movb a b)
  | movsxl (a b) : IsMove (.Movsxl a b)
  | movzxw (a b) : IsMove (.Movzxw a b)
  | movsxw (a b) : IsMove (.Movsxw a b)
  | movzxb (a b) : IsMove (.Movzxb a b)
  | movsxb (a b) : IsMove (.Movsxb a b)
  | lea (a b) : IsMove (.Lea a b)
  | xchgq (a b) : IsMove (.Xchg .QWORD a b)
  | pushq (a) : IsMove (.Pushq a)
  | popq (a) : IsMove (.Popq a)
  | cmov (sz c a b) : IsMove (.Cmovcc sz c a b)

/-- 64-bit and 32-bit shifts and rotates -/
inductive IsShift : Inst Val Nat → Prop where
  | rol (sz a b) (h : sz = .QWORD ∨ sz = .DWORD) : IsShift (.Rol sz a b)
  | ror (sz a b) (h : sz = .QWORD ∨ sz = .DWORD) : IsShift (.Ror sz a b)
  | shl (sz a b) (h : sz = .QWORD ∨ sz = .DWORD) : IsShift (.Shl sz a b)
  | sal (sz a b) (h : sz = .QWORD ∨ sz = .DWORD) : IsShift (.Sal sz a b)
  | shr (sz a b) (h : sz = .QWORD ∨ sz = .DWORD) : IsShift (.Shr sz a b)
  | sar (sz a b) (h : sz = .QWORD ∨ sz = .DWORD) : IsShift (.Sar sz a b)

/-- multiplication (two-operand form, no immediate), division, negation, test, bit counts,
    set, sign extension of rax -/
inductive IsArith : Inst Val Nat → Prop where
  | imul (a b) (h : ∀ i, b ≠ .imm i) : IsArith (.Imul a b)
  | idiv (a) : IsArith (.Idiv a)
  | idivl (a) : IsArith (.Idivl a)
  | div (a) : IsArith (.Div a)
  | divl (a) : IsArith (.Divl a)
  | negq (a) : IsArith (.Negq a)
  | testq (a b) : IsArith (.Testq a b)
  | testb (a b) : IsArith (.Testb a b)
  | lzcnt (sz a b) (h : sz = .QWORD ∨ sz = .DWORD) : IsArith (.Lzcnt sz a b)
  | tzcnt (sz a b) (h : sz = .QWORD ∨ sz = .DWORD) : IsArith (.Tzcnt sz a b)
  | popcnt (sz a b) (h : sz = .QWORD ∨ sz = .DWORD) : IsArith (.Popcnt sz a b)
  | setcc (c a) : IsArith (.Setcc c a)
  | cqo : IsArith .Cqo
  | cdq : IsArith .Cdq

/-- SSE instructions other than `roundpd` and `cvttsd2siq` -/
inductive IsSse : Inst Val Nat → Prop where
  | movsd (a b) : IsSse (.Movsd a b)
  | addsd (a b) : IsSse (.Addsd a b)
  | subsd (a b) : IsSse (.Subsd a b)
  | mulsd (a b) : IsSse (.Mulsd a b)
  | divsd (a b) : IsSse (.Divsd a b)
  | minsd (a b) : IsSse (.Minsd a b)
  | maxsd (a b) : IsSse (.Maxsd a b)
  | sqrtsd (a b) : IsSse (.Sqrtsd a b)
  | sqrtpd (a b) : IsSse (.Sqrtpd a b)
  | xorps (a b) : IsSse (.Xorps a b)
  | andpd (a b) : IsSse (.Andpd a b)
  | xorpd (a b) : IsSse (.Xorpd a b)
  | ucomisd (a b) : IsSse (.UComIsd a b)
  | cvtsi2sdq (a b) : IsSse (.Cvtsi2sdq a b)

/-- control transfer. (A computed displacement is possible with `call` only.) -/
inductive IsControl : Inst Val Nat → Prop where
  | jmp (d) (h : ∀ e, d ≠ .disp e) : IsControl (.Jmp d)
  | jcc (c l) : IsControl (.Jcc c l)
  | call (d) : IsControl (.Call d)
  | ret : IsControl .Ret
  | leave : IsControl .Leave
  | syscall : IsControl .Syscall
  | int3 : IsControl .Int3

/-- `i` is a direct jump to, or call of, the label `l`; `t d` is the instruction that transfers
    control to `d` bytes after its end. -/
inductive IsTransfer : Inst Val Nat → Nat → (BitVec 64 → X86.Instr) → Prop where
  | jmp (l) : IsTransfer (.Jmp (.rel l)) l .jmpRel
  | call (l) : IsTransfer (.Call (.rel l)) l .callRel
  | jcc (c l) : IsTransfer (.Jcc c l) l (.jcc (cc c))

end Spec
