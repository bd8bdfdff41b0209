import Verif.Spec.X86
/-
  Specification: names of the conditions of `jcc`, `setcc` and `cmovcc` (Intel SDM vol. 1, appendix
  B, and the names `eq`, `lt`, `gt` of README.md), as predicates on the flags.
-/

namespace Spec
open X86

/-- The condition with this name. -/
def condition (name : String) : Option (Flags → Bool) :=
  if name = "o" then some fun f => f.of
  else if name = "no" then some fun f => !f.of
  -- unsigned comparisons: carry is "below"
  else if name = "b" ∨ name = "c" ∨ name = "nae" then some fun f => f.cf
  else if name = "ae" ∨ name = "nb" ∨ name = "nc" then some fun f => !f.cf
  else if name = "be" ∨ name = "na" then some fun f => f.cf || f.zf
  else if name = "a" ∨ name = "nbe" then some fun f => !f.cf && !f.zf
  -- equality
  else if name = "e" ∨ name = "z" ∨ name = "eq" then some fun f => f.zf
  else if name = "ne" ∨ name = "nz" then some fun f => !f.zf
  -- sign, parity
  else if name = "s" then some fun f => f.sf
  else if name = "ns" then some fun f => !f.sf
  else if name = "p" ∨ name = "pe" then some fun f => f.pf
  else if name = "np" ∨ name = "po" then some fun f => !f.pf
  -- signed comparisons
  else if name = "l" ∨ name = "lt" ∨ name = "nge" then some fun f => f.sf != f.of
  else if name = "ge" ∨ name = "nl" then some fun f => f.sf == f.of
  else if name = "le" ∨ name = "ng" then some fun f => f.zf || f.sf != f.of
  else if name = "g" ∨ name = "gt" ∨ name = "nle" then some fun f => !f.zf && f.sf == f.of
  else none

/-- The hardware condition tested by an instruction. -/
def conditionOf : Instr → Option CC
  | .jcc c _ => some c
  | .setcc c _ => some c
  | .cmovcc c _ _ _ => some c
  | _ => none

/-- Mnemonics with the condition `n`. -/
def Conditional (n s : String) : Prop :=
  s = "j" ++ n ∨ s = "set" ++ n ∨ s = "cmov" ++ n ++ "q" ∨ s = "cmov" ++ n ++ "l" ∨ s = "cmov" ++ n ++ "w"

end Spec
