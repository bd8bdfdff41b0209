import Verif.Proofs.Correct
/-
  C29: immediates are never truncated.

  `immediate i` is the full 64-bit value written by the user. (The mode operand of `roundpd` is not
  an `i64` but a `u8` in Rust, all of whose values can be encoded.)
-/

namespace Monoasm
open Spec

/-- Whatever is emitted decodes to an instruction with exactly the value written. -/
theorem C29_exact (i : Inst Val Nat) (v) (hi : immediate i = some v) {s s' la mem I}
    (hr : Runs i s s') (hl : Linked s s' la mem) (hn : Near la (here s'))
    (hM : meaning (dist la (here s')) i = some I) (rest) :
    X86.decode (bytes mem (here s) (here s' - here s) ++ rest) = some (I, rest) ∧ v ∈ constants I :=
  ⟨faithful i (by rintro a b c rfl; simp [immediate, imm] at hi) (by rintro a b rfl; simp [immediate, imm] at hi)
    s s' la mem I hr hl hn hM rest, immediate_constant hi hM⟩

/-- A statement with an immediate, run where there is room, either runs to completion or panics
    because of the immediate; which of the two depends only on whether the value fits the field. -/
theorem C29_or_panics (i : Inst Val Nat) (s : JitMemory) (ha : Accepted i) (hv : Valid i) (hk : Known s i)
    (hr : Room s) : (ImmOk i ∧ ∃ s', Runs i s s') ∨ (¬ ImmOk i ∧ ∃ s', Panics i s .immOutOfRange s') := by
  obtain ⟨rel, I, hM⟩ := hv
  by_cases h : ImmOk i
  · exact .inl ⟨h, assembles ha hM h hk hr⟩
  · refine .inr ⟨h, ?_⟩
    simp only [ImmOk, Classical.not_forall] at h
    obtain ⟨n, v, hi, hf⟩ := h
    rcases imm_panics ha hi hf hr with h | h <;> exact ⟨_, h⟩

/-- An immediate that does not fit its field is never encoded. -/
theorem C29_never (i : Inst Val Nat) (n v) (hi : imm i = some (n, v)) (hf : ¬ fits n v) (s s') : ¬ Runs i s s' :=
  fun h => hf (runs_immOk h n v hi)

/-- `cmpq rax, 0x80000000` does not fit (the field is sign-extended) and panics; `0x7fffffff` fits. -/
example : (∃ s', Panics (.Cmp .QWORD (.reg (.reg 0)) (.imm 0x80000000)) ex0 .immOutOfRange s')
    ∧ ∃ s', Runs (.Cmp .QWORD (.reg (.reg 0)) (.imm 0x7fffffff)) ex0 s'
      ∧ ∀ rest, X86.decode (bytes s'.mem (here ex0) (here s' - here ex0) ++ rest)
        = some (.alu .cmp .q (.gpr 0) (.imm 0x7fffffff), rest) := by
  constructor
  · rcases C29_or_panics (.Cmp .QWORD (.reg (.reg 0)) (.imm 0x80000000)) ex0 ⟨_, rfl⟩
        ⟨fun _ => 0, _, rfl⟩ (by simp [Known, Inst.mentions, Inst.labels, RmOperand.labels, RmiOperand.labels])
        room_ex0 with ⟨h, _⟩ | ⟨_, h⟩
    · exact absurd (h 32 0x80000000 rfl) (by decide)
    · exact h
  · exact assembled (correct (isAlu_accepted (.cmp _ _ _)) (by simp) (by simp)) (fun _ => rfl)
      (fun _ _ h => by
        simp only [imm, rmiImm, immWidth, Option.some.injEq, Prod.mk.injEq] at h
        obtain ⟨rfl, rfl⟩ := h; decide)
      (by simp [Inst.mentions, Inst.labels, RmOperand.labels, RmiOperand.labels])

/-- `movb [rax], 200`: 200 is not the sign extension of a byte. -/
example : ∀ s', ¬ Runs (.Movb (.ind ⟨.reg 0, .none, .imm 0⟩) (.imm 200)) ex0 s' :=
  C29_never _ 8 200 rfl (by decide) ex0

end Monoasm
