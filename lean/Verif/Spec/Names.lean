/-
  Specification: register names up to (ASCII) case.
-/

namespace Spec

def capitals : List Char := "ABCDEFGHIJKLMNOPQRSTUVWXYZ".toList
def smalls : List Char := "abcdefghijklmnopqrstuvwxyz".toList

/-- Equal, or the capital and the small form of a letter. -/
def SameLetter (c d : Char) : Prop := c = d ∨ (c, d) ∈ capitals.zip smalls ∨ (d, c) ∈ capitals.zip smalls

/-- Equal up to case. -/
def SameWord (s t : String) : Prop :=
  s.toList.length = t.toList.length ∧ ∀ p ∈ s.toList.zip t.toList, SameLetter p.1 p.2

/-- Names of the registers and their numbers in machine code (Intel SDM vol. 2, tables 3-1 and 2-2);
    `rip`, which has none, is 16. -/
def registerTable : List (String × BitVec 8) :=
  [("rax", 0), ("rcx", 1), ("cl", 1), ("rdx", 2), ("rbx", 3), ("rsp", 4), ("rbp", 5), ("rsi", 6), ("rdi", 7),
   ("r8", 8), ("r9", 9), ("r10", 10), ("r11", 11), ("r12", 12), ("r13", 13), ("r14", 14), ("r15", 15), ("rip", 16)]

end Spec
