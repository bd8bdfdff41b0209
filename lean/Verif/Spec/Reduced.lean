import Verif.Spec.Ranges
/-
  Vocabulary for C39: register numbers reduced modulo 16.
-/

namespace Spec
open Monoasm

/-- The register whose number is that of `r` modulo 16; 16 itself (modulo 256) is `rip`. -/
def reduced (r : Register Val) : Register Val :=
  if (regVal r).setWidth 8 = 16#8 then .reg 16 else .reg (((regVal r).setWidth 4).setWidth 8)

def reducedXmm (x : XmmReg Val) : XmmReg Val :=
  if (xmmVal x).setWidth 8 = 16#8 then .no 16 else .no (((xmmVal x).setWidth 4).setWidth 8)

/-- The number of `r` is not a multiple of 16, unless it is 0 or 16 modulo 256: for the accumulator there
    are other encodings. -/
def NotAcc (r : Register Val) : Prop := (regVal r).setWidth 4 = 0#4 → (regVal r).setWidth 8 < 32#8

/-- Exchanges of two registers of which none has number 0 (modulo 256) are not with the accumulator. (Its operands
    would be decoded in the other order.) -/
def PlainXchg (i : Inst Val Nat) : Prop := ∀ p q, i = .Xchg .QWORD (.reg p) (.reg q) →
  (regVal p).setWidth 8 ≠ 0#8 → (regVal q).setWidth 8 ≠ 0#8 → NotAcc p ∧ NotAcc q

/-- Registers written by name exist, scale factors are 1, 2, 4 or 8 (both are so of all statements that
    parse), and no xmm register has number 16 modulo 256. -/
structure Legible (i : Inst Val Nat) : Prop where
  regs : ∀ n, .reg n ∈ i.regs → n ≤ 16
  xmms : ∀ x ∈ i.xmms, (xmmVal x).setWidth 8 ≠ 16#8
  scale : ∀ a ∈ i.addrs, ∀ sc r, a.scale = .s1 sc r → sc < 4

end Spec
