import Verif.Spec.Effects
import Verif.Spec.Simple
/-
  Specification: what a piece of machine code does when it is run to the end.
-/

namespace X86

/-- Every run from `s` reaches a state in which `Q` holds: it neither gets stuck nor goes on for ever
    before. -/
inductive Leads (E : Effect) (Q : State → Prop) : State → Prop where
  | done {s} : Q s → Leads E Q s
  | step {s} : (∃ s', Step E s s') → (∀ s', Step E s s' → Leads E Q s') → Leads E Q s

/-- `x` is one of the `k` bytes below address `a`. -/
def Below (a : BitVec 64) (k : Nat) (x : BitVec 64) : Prop := (a - 1 - x).toNat < k

/-- `x` is one of the `k` bytes from address `a` on. -/
def Within (a : BitVec 64) (k : Nat) (x : BitVec 64) : Prop := (x - a).toNat < k

/-- The registers for the first two arguments of a function (System V ABI). -/
def rdi : Gpr := 7
def rsi : Gpr := 6

/-- Registers that a function must preserve (System V ABI): rbx, rbp, r12 to r15. -/
def calleeSaved : List Gpr := [3, 5, 12, 13, 14, 15]

/-- The function that was entered in state `d` (with the return address on top of the stack) has
    returned to its caller, and has obeyed the calling convention. It has written only to addresses
    in `W`. -/
structure Returned (W : BitVec 64 → Prop) (d : Data) (s : State) : Prop where
  rip : s.rip = d.load64 (d.gpr rsp)
  rsp : s.data.gpr rsp = d.gpr rsp + 8
  saved : ∀ r ∈ calleeSaved, s.data.gpr r = d.gpr r
  mem : ∀ x, ¬ W x → s.data.mem x = d.mem x

end X86

namespace Spec
open Monoasm

/-- Memory of the processor contains the code and constants of the program (the two code pages), as
    left by the last call. -/
def Loaded (base : Nat) (mem : Nat → Byte) (H : List Op) (d : X86.Data) : Prop :=
  ∀ a, base ≤ a → a < base + 2 * PAGE_SIZE → d.mem (BitVec.ofNat 64 a) = (reach base mem H).mem a

/-- None of the addresses belongs to the memory for code and constants. -/
def Outside (base : Nat) (W : BitVec 64 → Prop) : Prop :=
  ∀ a, base ≤ a → a < base + 2 * PAGE_SIZE → ¬ W (BitVec.ofNat 64 a)

/-- Address of the code of statement `j` of a simple program. -/
def codeAt (base : Nat) (mem : Nat → Byte) (pre : List NewCall) (is : List (Inst Val Nat)) (j : Nat) : BitVec 64 :=
  placeW base mem (simple pre is) (pre.length + j)

end Spec
