import Verif.Proofs.Correct
import Verif.Proofs.Lower
/-
  C27: byte instructions never address ah, ch, dh, bh.
-/

namespace Monoasm
open Spec

/-- Byte instructions. -/
inductive IsByte : Inst Val Nat → Prop where
  | movb (a b) : IsByte (.Movb a b)
  | testb (a b) : IsByte (.Testb a b)
  | setcc (c a) : IsByte (.Setcc c a)
  | movzxb (a b) : IsByte (.Movzxb a b)
  | movsxb (a b) : IsByte (.Movsxb a b)
  | alu {i} (h : IsAlu i) : IsByte i

/-- The code of a byte instruction decodes to an instruction that has the register (4-7 included)
    or memory operands written, and none of ah, ch, dh, bh. -/
theorem C27_byte {i} (hb : IsByte i) {s s' la mem I} (hr : Runs i s s') (hl : Linked s s' la mem)
    (hn : Near la (here s')) (hM : meaning (dist la (here s')) i = some I) (rest) :
    X86.decode (bytes mem (here s) (here s' - here s) ++ rest) = some (I, rest)
    ∧ ∀ h, X86.Opd.high h ∉ operands I := by
  have hf : Faithful i := by
    cases hb
    case alu h => cases h <;> exact faithful _ (by simp) (by simp)
    all_goals exact faithful _ (by simp) (by simp)
  exact ⟨hf s s' la mem I hr hl hn hM rest, fun _ => meaning_low _ _ _ hM _⟩

/-- `movb dil, [rsi]`: register 7 as a byte. -/
example : ∃ s', Runs (.Movb (.reg (.reg 7)) (.ind ⟨.reg 6, .none, .imm 0⟩)) ex0 s' ∧ ∀ rest,
    X86.decode (bytes s'.mem (here ex0) (here s' - here ex0) ++ rest)
      = some (.mov .b (.gpr 7) (.mem ⟨.gpr 6, none, 0⟩), rest) :=
  assembled (correct (isMove_accepted (.movb _ _)) (by simp) (by simp)) (fun _ => rfl) (fun _ _ h => by cases h)
    (by simp [Inst.mentions, Inst.labels, RmOperand.labels, RmiOperand.labels, IndAddr.labels, MDisp.labels])

end Monoasm
