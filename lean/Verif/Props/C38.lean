import Verif.Proofs.Ranges
/-
  C38: forms that x86 does not have are rejected.

  `Valid i` says that the statement denotes an x86 instruction (Spec/Meaning.lean). The property holds
  for all statements whose registers exist and whose index register is not `rsp`; it fails for `rsp`
  as an index, which is silently encoded as "no index", and for computed registers outside the
  register file (see C39).
-/

namespace Monoasm
open Spec

/-- A statement that denotes no instruction, label or datum is never assembled: it is rejected at
    expansion, or its code generation panics. -/
theorem C38_partial (i : Inst Val Nat) (hr : InRange i) (hv : ¬ Valid i) (h1 : ∀ l, i ≠ .Label l)
    (h2 : ∀ v, i ≠ .I64 v) (h3 : ∀ v, i ≠ .F64 v) (s s') : ¬ Runs i s s' := by
  intro h
  rcases runs_valid hr h with h | ⟨_, rfl⟩ | ⟨_, rfl⟩ | ⟨_, rfl⟩
  · exact hv h
  · exact h1 _ rfl
  · exact h2 _ rfl
  · exact h3 _ rfl

/-- What happens with `rsp` as an index, in general: a statement is assembled only if it denotes
    something when that index is left out... -/
theorem C38_rejects (i : Inst Val Nat) (hr : InFile i) (hv : ¬ Valid (i.mapAddr dropRsp)) (h1 : ∀ l, i ≠ .Label l)
    (h2 : ∀ v, i ≠ .I64 v) (h3 : ∀ v, i ≠ .F64 v) (s s') : ¬ Runs i s s' := by
  intro h
  rcases runs_dropped hr h with h | ⟨_, rfl⟩ | ⟨_, rfl⟩ | ⟨_, rfl⟩
  · exact hv h
  · exact h1 _ rfl
  · exact h2 _ rfl
  · exact h3 _ rfl

/-- ... and then its code is that of the statement without the index. (`roundpd` and `cvttsd2siq` are
    wrong in other ways as well, see C33.) -/
theorem C38_index_dropped (i : Inst Val Nat) (h1 : ∀ a b c, i ≠ .Roundpd a b c) (h2 : ∀ a b, i ≠ .Cvttsd2siq a b)
    {s s' la mem I} (h : Runs i s s') (hl : Linked s s' la mem) (hn : Near la (here s'))
    (hM : meaning (dist la (here s')) (i.mapAddr dropRsp) = some I) (rest) :
    X86.decode (bytes mem (here s) (here s' - here s) ++ rest) = some (I, rest) :=
  dropped_faithful h1 h2 h hl hn hM rest

/-- `addq rax, [r12 + rsp*8 + 4]` adds the word at `[r12 + 4]`. -/
example {s s' la mem} (h : Runs (.Add .QWORD (.reg (.reg 0)) (.ind ⟨.reg 12, .s1 3 (.reg 4), .imm 4⟩)) s s')
    (hl : Linked s s' la mem) (hn : Near la (here s')) (rest) :
    X86.decode (bytes mem (here s) (here s' - here s) ++ rest)
      = some (.alu .add .q (.gpr 0) (.mem ⟨.gpr 12, none, 4⟩), rest) :=
  C38_index_dropped _ (by simp) (by simp) h hl hn rfl rest

/-- `movq rax, [rip + rsp*2]` is never assembled. -/
example (s s') : ¬ Runs (.Movq (.reg (.reg 0)) (.ind ⟨.reg 16, .s1 1 (.reg 4), .imm 0⟩)) s s' := by
  refine C38_rejects _ ⟨?_, ?_, ?_⟩ ?_ (by simp) (by simp) (by simp) s s'
  · simp [Inst.regs, MovOperand.regs, IndAddr.regs, regVal]
  · simp [Inst.xmms, MovOperand.xmms]
  · simp [Inst.addrs, MovOperand.addrs]
  · rintro ⟨rel, I, h⟩
    revert h
    simp [Inst.mapAddr, MovOperand.mapAddr, dropRsp, meaning, Spec.movq, addr, gpr, regVal]

/-- `movq rax, [rbx + rsp*2]`. -/
def rspIndex : Inst Val Nat := .Movq (.reg (.reg 0)) (.ind ⟨.reg 3, .s1 1 (.reg 4), .imm 0⟩)

/-- **The property is false for `rsp` as an index**: the statement denotes nothing, and is assembled
    into the code of `movq rax, [rbx]`. -/
theorem C38_rsp_index_wrong : ¬ Valid rspIndex ∧ ∃ s', Runs rspIndex ex0 s' ∧ ∀ rest,
    X86.decode (bytes s'.mem (here ex0) (here s' - here ex0) ++ rest)
      = some (.mov .q (.gpr 0) (.mem ⟨.gpr 3, none, 0⟩), rest) := by
  constructor
  · rintro ⟨rel, I, h⟩
    revert h
    simp [rspIndex, meaning, Spec.movq, addr, gpr, regVal]
  · have hi : items rspIndex = .ok [.i8 0x48, .i8 0x8b, .i8 0x04, .i8 0x63] := rfl
    obtain ⟨s', h⟩ := runItems_total (its := [.i8 0x48, .i8 0x8b, .i8 0x04, .i8 0x63]) (s := ex0)
      (by simp) (by simp) (by simp) (by have : (ex0.pages ex0.page).counter + 12 ≤ PAGE_SIZE := room_ex0
                                        simp only [lenOf_cons, lenOf_nil, Item.len]; omega)
    have hr := runs_of_items hi h
    refine ⟨s', hr, fun rest => ?_⟩
    have hran := runItems_ok h
    have hl := linked_self hr (by simp [rspIndex, Inst.mentions, Inst.labels, MovOperand.labels, IndAddr.labels, MDisp.labels]) (fun _ => 0)
    have hb := linked_vals (ψ := fun _ => 0) hran hl (by
      intro pre l off post e
      have : Item.rel l off ∈ [Item.i8 0x48, .i8 0x8b, .i8 0x04, .i8 0x63] := by rw [e]; simp
      simp at this)
    have hh := hran.here
    rw [show here s' - here ex0 = lenOf [Item.i8 0x48, .i8 0x8b, .i8 0x04, .i8 0x63] by omega, hb]
    rfl

/-- `movq [rax], [rbx]`, `lea rax, rbx`, `movq rax, rip`, `movq rax, [rax + rip*2]`, `shlq rax, rbx`
    are never assembled. -/
example (s s') :
    ¬ Runs (.Movq (.ind ⟨.reg 0, .none, .imm 0⟩) (.ind ⟨.reg 3, .none, .imm 0⟩)) s s'
    ∧ ¬ Runs (.Lea (.reg (.reg 0)) (.reg (.reg 3))) s s'
    ∧ ¬ Runs (.Movq (.reg (.reg 0)) (.reg (.reg 16))) s s'
    ∧ ¬ Runs (.Movq (.reg (.reg 0)) (.ind ⟨.reg 0, .s1 1 (.reg 16), .imm 0⟩)) s s'
    ∧ ¬ Runs (.Shl .QWORD (.reg (.reg 0)) (.reg (.reg 3))) s s' := by
  refine ⟨?_, ?_, ?_, ?_, ?_⟩ <;> refine C38_partial _ ⟨?_, ?_, ?_⟩ ?_ (by simp) (by simp) (by simp) s s'
  all_goals first
    | (rintro ⟨rel, I, h⟩
       revert h
       simp [meaning, Spec.movq, Spec.shift, addr, gpr, regVal, rm, ri]
       done)
    | (simp [Inst.regs, MovOperand.regs, RmOperand.regs, RiOperand.regs, IndAddr.regs, regVal]; done)
    | (simp [Inst.xmms, MovOperand.xmms]; done)
    | (simp [Inst.addrs, MovOperand.addrs, RmOperand.addrs, regVal]; done)

end Monoasm
