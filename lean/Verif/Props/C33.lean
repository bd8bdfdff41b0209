import Verif.Proofs.Correct
/-
  C33: SSE instructions.

  The property fails for `cvttsd2siq`: REX.W is missing, the instruction converts to a 32-bit
  integer. (`roundpd` with a label operand is treated in C25.)
-/

namespace Monoasm
open Spec

/-- All SSE instructions except `roundpd` and `cvttsd2siq`. -/
theorem C33_sse_partial (i : Inst Val Nat) (h : IsSse i) : Correct i :=
  correct (isSse_accepted h) (by cases h <;> simp) (by cases h <;> simp)

/-- `roundpd` with an operand other than a label. -/
theorem C33_roundpd_partial (a : XmmReg Val) (b : XmOperand Val Nat) (m : Val) (hb : b.labels = []) :
    Correct (.Roundpd a b m) where
  accepted := fun _ => accepted_of rfl
  assembles := fun _ ⟨_, _, hM⟩ hi hk hr => assembles (accepted_of rfl) hM hi hk hr
  faithful := faithful_round hb

/-- `movq` with xmm operands. -/
theorem C33_movq (a b : MovOperand Val Nat)
    (h : (∃ x, a = .xmm x ∧ ∀ i z, b ≠ .imm i z) ∨ ∃ x, b = .xmm x) : Correct (.Movq a b) := by
  refine correct (isMove_accepted (.movq _ _ ?_ ?_)) (by simp) (by simp)
  · rintro m i z rfl rfl; simp at h
  · rintro r i z rfl rfl; simp at h

/-- **The property is false for `cvttsd2siq`**: what is encoded is the conversion to 32 bits,
    whatever the operands. -/
theorem C33_cvttsd2siq_wrong {a b s s' la mem r o} (h : Runs (.Cvttsd2siq a b) s s')
    (hl : Linked s s' la mem) (hn : Near la (here s')) (ha : gpr a = some r)
    (hb : xm (dist la (here s')) b = some o) (rest) :
    meaning (dist la (here s')) (.Cvttsd2siq a b) = some (.cvttf2si .sd .q (.gpr r) o)
    ∧ X86.decode (bytes mem (here s) (here s' - here s) ++ rest)
      = some (.cvttf2si .sd .d (.gpr r) o, rest) :=
  ⟨by simp [meaning, ha, hb], decode_cvtt h hl hn ha hb rest⟩

/-- No `cvttsd2siq` with valid operands is encoded as written (here: `cvttsd2siq rax, xmm0`). -/
theorem C33_cvttsd2siq_not_faithful : ¬ Faithful (.Cvttsd2siq (.reg 0) (.xmm (.no 0))) := by
  intro hf
  obtain ⟨s', h⟩ := assembles (rel := fun _ => 0) (s := ex0) (i := .Cvttsd2siq (.reg 0) (.xmm (.no 0)))
    ⟨_, rfl⟩ rfl (fun n v h => by cases h)
    (by simp [Known, Inst.mentions, Inst.labels, XmOperand.labels]) room_ex0
  have hl := linked_self h (by simp [Inst.mentions, Inst.labels, XmOperand.labels]) (fun _ => here s')
  have hn : Near (fun _ => here s') (here s') := fun l => by dsimp only; constructor <;> omega
  have h1 := hf _ _ _ _ _ h hl hn rfl []
  have h2 := (C33_cvttsd2siq_wrong h hl hn rfl rfl []).2
  rw [h2] at h1
  simp at h1

/-- `cvtsi2sdq xmm9, [rdi]` has REX.W. -/
example : ∃ s', Runs (.Cvtsi2sdq (.no 9) (.ind ⟨.reg 7, .none, .imm 0⟩)) ex0 s'
    ∧ ∀ rest, X86.decode (bytes s'.mem (here ex0) (here s' - here ex0) ++ rest)
      = some (.cvtsi2f .sd .q (.xmm 9) (.mem ⟨.gpr 7, none, 0⟩), rest) :=
  assembled (C33_sse_partial _ (.cvtsi2sdq _ _)) (fun _ => rfl) (fun _ _ h => by cases h)
    (by simp [Inst.mentions, Inst.labels, RmOperand.labels, IndAddr.labels, MDisp.labels])

/-- `roundpd xmm1, xmm15, 2`. -/
example : ∃ s', Runs (.Roundpd (.no 1) (.xmm (.no 15)) 2) ex0 s'
    ∧ ∀ rest, X86.decode (bytes s'.mem (here ex0) (here s' - here ex0) ++ rest)
      = some (.round .pd (.xmm 1) (.xmm 15) 2, rest) :=
  assembled (C33_roundpd_partial _ _ _ rfl) (fun _ => rfl) (fun _ _ h => by cases h)
    (by simp [Inst.mentions, Inst.labels, XmOperand.labels])

/-- `movq rbx, xmm3`. -/
example : ∃ s', Runs (.Movq (.reg (.reg 3)) (.xmm (.no 3))) ex0 s'
    ∧ ∀ rest, X86.decode (bytes s'.mem (here ex0) (here s' - here ex0) ++ rest)
      = some (.movgx .q (.gpr 3) (.xmm 3), rest) :=
  assembled (C33_movq _ _ (.inr ⟨_, rfl⟩)) (fun _ => rfl) (fun _ _ h => by cases h)
    (by simp [Inst.mentions, Inst.labels, MovOperand.labels])

end Monoasm
