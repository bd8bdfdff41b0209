import Verif.Spec.Runtime
import Verif.Spec.X86
/-
  Vocabulary for jump patching.
-/

namespace Spec
open Monoasm

/-- The `jmp` or `call` at address `a` goes to address `x` and to nothing else: whatever follows it
    in memory, the processor decodes five bytes as a relative jump (or call) whose signed
    displacement counted from the end of the instruction reaches `x`. -/
def GoesTo (mem : Nat → Byte) (a x : Nat) : Prop :=
  ∃ v : BitVec 64, v.toInt + (a + 5 : Nat) = x ∧
    ((mem a = 0xe9 ∧ ∀ n, X86.decode (bytes mem a (5 + n)) = some (.jmpRel v, bytes mem (a + 5) n))
    ∨ (mem a = 0xe8 ∧ ∀ n, X86.decode (bytes mem a (5 + n)) = some (.callRel v, bytes mem (a + 5) n)))

end Spec
