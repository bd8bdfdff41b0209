import Verif.Proofs.Readme
/-
  C43: documented mnemonics.

  Violated: README.md lists `xchgl`, `xchgw` and `xchgb`; they are parsed, but the code generator has
  `unimplemented!()` for them. All the other instructions listed work.
-/

namespace Monoasm
open Spec

variable {X : RustExpr}

/-- Finds the spelling. -/
local macro "sp" : tactic => `(tactic| first
  | exact List.Mem.head _ | exact List.Mem.tail _ (List.Mem.head _)
  | exact List.Mem.tail _ (List.Mem.tail _ (List.Mem.head _)))
/-- The code generator accepts the statement. -/
local macro "ac" : tactic => `(tactic| (intros; exact ⟨_, rfl⟩))
/-- The statement denotes an instruction. -/
local macro "mn" : tactic => `(tactic| (intros; first
  | exact ⟨_, rfl⟩
  | (simp_all [meaning, Inst.map, RmOperand.map, RmiOperand.map, RiOperand.map, XmOperand.map, MovOperand.map, Register.map,
      XmmReg.map, Dest.map, Spec.alu, Spec.mov, Spec.movq, Spec.ext, Spec.shift, Spec.xchg, Spec.un, Spec.sse, Spec.rm, Spec.rmi, Spec.ri,
      Spec.xm, gpr_reg, xmm_no, notBothMem]; done)
  | (simp_all [meaning, Inst.map, RmOperand.map, Register.map, Spec.xchg, Spec.rm, gpr_reg]
     repeat' split
     all_goals exact ⟨_, rfl⟩)))

theorem works_lea (hX : Takes X) : Works X "lea" .regMem := by
  intro ts h
  cases h with
  | regMem h1 h2 =>
    obtain ⟨n, hn, h1⟩ := gprNames_reg h1
    obtain ⟨m, hm, h2⟩ := gprNames_reg h2
    refine ⟨.Lea (.reg (.reg n)) (.ind ⟨.reg m, .none, .imm 0⟩), inst_text hX (List.Mem.head _)
      (tss := [[.ident _], [.group .bracket [.ident _]]]) ⟨.name h1, .mk (.disp (td := []) (.name h2) .none (by simp)), trivial⟩ rfl,
      fun ρ σ => ⟨⟨_, rfl⟩, .inl ⟨fun _ => 0, ?_⟩⟩⟩
    have hm' : m.setWidth 64 ≠ 16#64 := by
      intro e
      have h' : m.toNat < 16 := hm
      have := congrArg BitVec.toNat e
      simp at this
      omega
    simp [meaning, Inst.map, RmOperand.map, Register.map, IndAddr.map, MScale.map, MDisp.map, addr, gpr_reg hn, gpr_reg hm, regVal, hm']

theorem works_cvtsi2sdq (hX : Takes X) : Works X "cvtsi2sdq" .xmmReg := by
  intro ts h
  cases h with
  | xmmReg h1 h2 =>
    obtain ⟨n, hn, h1⟩ := xmmNames_xmm h1
    obtain ⟨m, hm, h2⟩ := gprNames_reg h2
    refine ⟨.Cvtsi2sdq (.no n) (.reg (.reg m)), inst_text hX (List.Mem.head _) (tss := [[.ident _], [.ident _]])
      ⟨h1, .name h2, trivial⟩ rfl,
      fun ρ σ => ⟨⟨_, rfl⟩, .inl ⟨fun _ => 0, ?_⟩⟩⟩
    simp [meaning, Inst.map, RmOperand.map, Register.map, XmmReg.map, Spec.rm, gpr_reg hm, xmm_no hn]

theorem works_dq (hX : Takes X) : Works X "dq" .int := by
  intro ts h
  cases h with
  | int h => exact ⟨.I64 _, inst_text hX (List.Mem.head _) (tss := [[_]]) ⟨⟨_, _, .pos, by omega, by omega, rfl⟩, trivial⟩ rfl,
      fun ρ σ => ⟨⟨_, rfl⟩, .inr ⟨_, rfl⟩⟩⟩

/-- All the instructions of README.md work, except the three. -/
theorem C43_partial (hX : Takes X) : ∀ e ∈ readme, e.1 ∉ ["xchgl", "xchgw", "xchgb"] → Works X e.1 e.2 := by
  simp only [readme, List.forall_mem_cons]
  and_intros
  · intro _; exact works_regReg (fun n m => .Movq (.reg (.reg n)) (.reg (.reg m))) hX (by intros; sp) (fun h1 h2 => ⟨.name h1, .name h2, trivial⟩) (by ac) (by mn)
  · intro _; exact works_lea hX
  · intro _; exact works_regReg (fun n m => .Add .QWORD (.reg (.reg n)) (.reg (.reg m))) hX (by intros; sp) (fun h1 h2 => ⟨.name h1, .name h2, trivial⟩) (by ac) (by mn)
  · intro _; exact works_regReg (fun n m => .Or .QWORD (.reg (.reg n)) (.reg (.reg m))) hX (by intros; sp) (fun h1 h2 => ⟨.name h1, .name h2, trivial⟩) (by ac) (by mn)
  · intro _; exact works_regReg (fun n m => .Adc .QWORD (.reg (.reg n)) (.reg (.reg m))) hX (by intros; sp) (fun h1 h2 => ⟨.name h1, .name h2, trivial⟩) (by ac) (by mn)
  · intro _; exact works_regReg (fun n m => .Sbb .QWORD (.reg (.reg n)) (.reg (.reg m))) hX (by intros; sp) (fun h1 h2 => ⟨.name h1, .name h2, trivial⟩) (by ac) (by mn)
  · intro _; exact works_regReg (fun n m => .And .QWORD (.reg (.reg n)) (.reg (.reg m))) hX (by intros; sp) (fun h1 h2 => ⟨.name h1, .name h2, trivial⟩) (by ac) (by mn)
  · intro _; exact works_regReg (fun n m => .Sub .QWORD (.reg (.reg n)) (.reg (.reg m))) hX (by intros; sp) (fun h1 h2 => ⟨.name h1, .name h2, trivial⟩) (by ac) (by mn)
  · intro _; exact works_regReg (fun n m => .Xor .QWORD (.reg (.reg n)) (.reg (.reg m))) hX (by intros; sp) (fun h1 h2 => ⟨.name h1, .name h2, trivial⟩) (by ac) (by mn)
  · intro _; exact works_regReg (fun n m => .Cmp .QWORD (.reg (.reg n)) (.reg (.reg m))) hX (by intros; sp) (fun h1 h2 => ⟨.name h1, .name h2, trivial⟩) (by ac) (by mn)
  · intro _; exact works_regReg (fun n m => .Xchg .QWORD (.reg (.reg n)) (.reg (.reg m))) hX (by intros; sp) (fun h1 h2 => ⟨.name h1, .name h2, trivial⟩) (by ac) (by mn)
  · intro _; exact works_reg (fun n => .Negq (.reg (.reg n))) hX (by intros; sp) (fun h => ⟨.name h, trivial⟩) (by ac) (by mn)
  · intro _; exact works_regReg (fun n m => .Imul (.reg (.reg n)) (.reg (.reg m))) hX (by intros; sp) (fun h1 h2 => ⟨.name h1, .name h2, trivial⟩) (by ac) (by mn)
  · intro _; exact works_reg (fun n => .Idiv (.reg (.reg n))) hX (by intros; sp) (fun h => ⟨.name h, trivial⟩) (by ac) (by mn)
  · intro _; exact works_reg (fun n => .Div (.reg (.reg n))) hX (by intros; sp) (fun h => ⟨.name h, trivial⟩) (by ac) (by mn)
  · intro _; exact works_none .Cqo hX (by sp) rfl (by ac) (by mn)
  · intro _; exact works_regImm (fun n e => .Shl .QWORD (.reg (.reg n)) (.imm e)) hX (by intros; sp) (fun h h' => ⟨.name h, h', trivial⟩) (by ac) (by mn)
  · intro _; exact works_regImm (fun n e => .Shr .QWORD (.reg (.reg n)) (.imm e)) hX (by intros; sp) (fun h h' => ⟨.name h, h', trivial⟩) (by ac) (by mn)
  · intro _; exact works_regImm (fun n e => .Sal .QWORD (.reg (.reg n)) (.imm e)) hX (by intros; sp) (fun h h' => ⟨.name h, h', trivial⟩) (by ac) (by mn)
  · intro _; exact works_regImm (fun n e => .Sar .QWORD (.reg (.reg n)) (.imm e)) hX (by intros; sp) (fun h h' => ⟨.name h, h', trivial⟩) (by ac) (by mn)
  · intro _; exact works_regImm (fun n e => .Rol .QWORD (.reg (.reg n)) (.imm e)) hX (by intros; sp) (fun h h' => ⟨.name h, h', trivial⟩) (by ac) (by mn)
  · intro _; exact works_regImm (fun n e => .Ror .QWORD (.reg (.reg n)) (.imm e)) hX (by intros; sp) (fun h h' => ⟨.name h, h', trivial⟩) (by ac) (by mn)
  · intro _; exact works_regReg (fun n m => .Testq (.reg (.reg n)) (.reg (.reg m))) hX (by intros; sp) (fun h1 h2 => ⟨.name h1, .name h2, trivial⟩) (by ac) (by mn)
  · intro _; exact works_regReg (fun n m => .Lzcnt .QWORD (.reg n) (.reg (.reg m))) hX (by intros; sp) (fun h1 h2 => ⟨.name h1, .name h2, trivial⟩) (by ac) (by mn)
  · intro _; exact works_regReg (fun n m => .Tzcnt .QWORD (.reg n) (.reg (.reg m))) hX (by intros; sp) (fun h1 h2 => ⟨.name h1, .name h2, trivial⟩) (by ac) (by mn)
  · intro _; exact works_regReg (fun n m => .Popcnt .QWORD (.reg n) (.reg (.reg m))) hX (by intros; sp) (fun h1 h2 => ⟨.name h1, .name h2, trivial⟩) (by ac) (by mn)
  · intro _; exact works_reg (fun n => .Setcc .Eq (.reg (.reg n))) hX (by intros; sp) (fun h => ⟨.name h, trivial⟩) (by ac) (by mn)
  · intro _; exact works_reg (fun n => .Setcc .Ne (.reg (.reg n))) hX (by intros; sp) (fun h => ⟨.name h, trivial⟩) (by ac) (by mn)
  · intro _; exact works_reg (fun n => .Setcc .Gt (.reg (.reg n))) hX (by intros; sp) (fun h => ⟨.name h, trivial⟩) (by ac) (by mn)
  · intro _; exact works_reg (fun n => .Setcc .Ge (.reg (.reg n))) hX (by intros; sp) (fun h => ⟨.name h, trivial⟩) (by ac) (by mn)
  · intro _; exact works_reg (fun n => .Setcc .Lt (.reg (.reg n))) hX (by intros; sp) (fun h => ⟨.name h, trivial⟩) (by ac) (by mn)
  · intro _; exact works_reg (fun n => .Setcc .Le (.reg (.reg n))) hX (by intros; sp) (fun h => ⟨.name h, trivial⟩) (by ac) (by mn)
  · intro _; exact works_reg (fun n => .Setcc .A (.reg (.reg n))) hX (by intros; sp) (fun h => ⟨.name h, trivial⟩) (by ac) (by mn)
  · intro _; exact works_reg (fun n => .Setcc .Ae (.reg (.reg n))) hX (by intros; sp) (fun h => ⟨.name h, trivial⟩) (by ac) (by mn)
  · intro _; exact works_reg (fun n => .Setcc .B (.reg (.reg n))) hX (by intros; sp) (fun h => ⟨.name h, trivial⟩) (by ac) (by mn)
  · intro _; exact works_reg (fun n => .Setcc .Be (.reg (.reg n))) hX (by intros; sp) (fun h => ⟨.name h, trivial⟩) (by ac) (by mn)
  · intro _; exact works_regReg (fun n m => .Movl (.reg (.reg n)) (.reg (.reg m))) hX (by intros; sp) (fun h1 h2 => ⟨.name h1, .name h2, trivial⟩) (by ac) (by mn)
  · intro _; exact works_regReg (fun n m => .Movsxl (.reg n) (.reg (.reg m))) hX (by intros; sp) (fun h1 h2 => ⟨.name h1, .name h2, trivial⟩) (by ac) (by mn)
  · intro _; exact works_regReg (fun n m => .Add .DWORD (.reg (.reg n)) (.reg (.reg m))) hX (by intros; sp) (fun h1 h2 => ⟨.name h1, .name h2, trivial⟩) (by ac) (by mn)
  · intro _; exact works_regReg (fun n m => .Or .DWORD (.reg (.reg n)) (.reg (.reg m))) hX (by intros; sp) (fun h1 h2 => ⟨.name h1, .name h2, trivial⟩) (by ac) (by mn)
  · intro _; exact works_regReg (fun n m => .Adc .DWORD (.reg (.reg n)) (.reg (.reg m))) hX (by intros; sp) (fun h1 h2 => ⟨.name h1, .name h2, trivial⟩) (by ac) (by mn)
  · intro _; exact works_regReg (fun n m => .Sbb .DWORD (.reg (.reg n)) (.reg (.reg m))) hX (by intros; sp) (fun h1 h2 => ⟨.name h1, .name h2, trivial⟩) (by ac) (by mn)
  · intro _; exact works_regReg (fun n m => .And .DWORD (.reg (.reg n)) (.reg (.reg m))) hX (by intros; sp) (fun h1 h2 => ⟨.name h1, .name h2, trivial⟩) (by ac) (by mn)
  · intro _; exact works_regReg (fun n m => .Sub .DWORD (.reg (.reg n)) (.reg (.reg m))) hX (by intros; sp) (fun h1 h2 => ⟨.name h1, .name h2, trivial⟩) (by ac) (by mn)
  · intro _; exact works_regReg (fun n m => .Xor .DWORD (.reg (.reg n)) (.reg (.reg m))) hX (by intros; sp) (fun h1 h2 => ⟨.name h1, .name h2, trivial⟩) (by ac) (by mn)
  · intro _; exact works_regReg (fun n m => .Cmp .DWORD (.reg (.reg n)) (.reg (.reg m))) hX (by intros; sp) (fun h1 h2 => ⟨.name h1, .name h2, trivial⟩) (by ac) (by mn)
  · intro h; exact absurd (by decide) h
  · intro _; exact works_regReg (fun n m => .Movw (.reg (.reg n)) (.reg (.reg m))) hX (by intros; sp) (fun h1 h2 => ⟨.name h1, .name h2, trivial⟩) (by ac) (by mn)
  · intro _; exact works_regReg (fun n m => .Movzxw (.reg n) (.reg (.reg m))) hX (by intros; sp) (fun h1 h2 => ⟨.name h1, .name h2, trivial⟩) (by ac) (by mn)
  · intro _; exact works_regReg (fun n m => .Movsxw (.reg n) (.reg (.reg m))) hX (by intros; sp) (fun h1 h2 => ⟨.name h1, .name h2, trivial⟩) (by ac) (by mn)
  · intro _; exact works_regReg (fun n m => .Add .WORD (.reg (.reg n)) (.reg (.reg m))) hX (by intros; sp) (fun h1 h2 => ⟨.name h1, .name h2, trivial⟩) (by ac) (by mn)
  · intro _; exact works_regReg (fun n m => .Or .WORD (.reg (.reg n)) (.reg (.reg m))) hX (by intros; sp) (fun h1 h2 => ⟨.name h1, .name h2, trivial⟩) (by ac) (by mn)
  · intro _; exact works_regReg (fun n m => .Adc .WORD (.reg (.reg n)) (.reg (.reg m))) hX (by intros; sp) (fun h1 h2 => ⟨.name h1, .name h2, trivial⟩) (by ac) (by mn)
  · intro _; exact works_regReg (fun n m => .Sbb .WORD (.reg (.reg n)) (.reg (.reg m))) hX (by intros; sp) (fun h1 h2 => ⟨.name h1, .name h2, trivial⟩) (by ac) (by mn)
  · intro _; exact works_regReg (fun n m => .And .WORD (.reg (.reg n)) (.reg (.reg m))) hX (by intros; sp) (fun h1 h2 => ⟨.name h1, .name h2, trivial⟩) (by ac) (by mn)
  · intro _; exact works_regReg (fun n m => .Sub .WORD (.reg (.reg n)) (.reg (.reg m))) hX (by intros; sp) (fun h1 h2 => ⟨.name h1, .name h2, trivial⟩) (by ac) (by mn)
  · intro _; exact works_regReg (fun n m => .Xor .WORD (.reg (.reg n)) (.reg (.reg m))) hX (by intros; sp) (fun h1 h2 => ⟨.name h1, .name h2, trivial⟩) (by ac) (by mn)
  · intro _; exact works_regReg (fun n m => .Cmp .WORD (.reg (.reg n)) (.reg (.reg m))) hX (by intros; sp) (fun h1 h2 => ⟨.name h1, .name h2, trivial⟩) (by ac) (by mn)
  · intro h; exact absurd (by decide) h
  · intro _; exact works_regReg (fun n m => .Movb (.reg (.reg n)) (.reg (.reg m))) hX (by intros; sp) (fun h1 h2 => ⟨.name h1, .name h2, trivial⟩) (by ac) (by mn)
  · intro _; exact works_regReg (fun n m => .Movzxb (.reg n) (.reg (.reg m))) hX (by intros; sp) (fun h1 h2 => ⟨.name h1, .name h2, trivial⟩) (by ac) (by mn)
  · intro _; exact works_regReg (fun n m => .Movsxb (.reg n) (.reg (.reg m))) hX (by intros; sp) (fun h1 h2 => ⟨.name h1, .name h2, trivial⟩) (by ac) (by mn)
  · intro _; exact works_regReg (fun n m => .Add .BYTE (.reg (.reg n)) (.reg (.reg m))) hX (by intros; sp) (fun h1 h2 => ⟨.name h1, .name h2, trivial⟩) (by ac) (by mn)
  · intro _; exact works_regReg (fun n m => .Or .BYTE (.reg (.reg n)) (.reg (.reg m))) hX (by intros; sp) (fun h1 h2 => ⟨.name h1, .name h2, trivial⟩) (by ac) (by mn)
  · intro _; exact works_regReg (fun n m => .Adc .BYTE (.reg (.reg n)) (.reg (.reg m))) hX (by intros; sp) (fun h1 h2 => ⟨.name h1, .name h2, trivial⟩) (by ac) (by mn)
  · intro _; exact works_regReg (fun n m => .Sbb .BYTE (.reg (.reg n)) (.reg (.reg m))) hX (by intros; sp) (fun h1 h2 => ⟨.name h1, .name h2, trivial⟩) (by ac) (by mn)
  · intro _; exact works_regReg (fun n m => .And .BYTE (.reg (.reg n)) (.reg (.reg m))) hX (by intros; sp) (fun h1 h2 => ⟨.name h1, .name h2, trivial⟩) (by ac) (by mn)
  · intro _; exact works_regReg (fun n m => .Sub .BYTE (.reg (.reg n)) (.reg (.reg m))) hX (by intros; sp) (fun h1 h2 => ⟨.name h1, .name h2, trivial⟩) (by ac) (by mn)
  · intro _; exact works_regReg (fun n m => .Xor .BYTE (.reg (.reg n)) (.reg (.reg m))) hX (by intros; sp) (fun h1 h2 => ⟨.name h1, .name h2, trivial⟩) (by ac) (by mn)
  · intro _; exact works_regReg (fun n m => .Cmp .BYTE (.reg (.reg n)) (.reg (.reg m))) hX (by intros; sp) (fun h1 h2 => ⟨.name h1, .name h2, trivial⟩) (by ac) (by mn)
  · intro h; exact absurd (by decide) h
  · intro _; exact works_regReg (fun n m => .Testb (.reg (.reg n)) (.reg (.reg m))) hX (by intros; sp) (fun h1 h2 => ⟨.name h1, .name h2, trivial⟩) (by ac) (by mn)
  · intro _; exact works_regReg (fun n m => .Cmovcc .QWORD .B (.reg n) (.reg (.reg m))) hX (by intros; sp) (fun h1 h2 => ⟨.name h1, .name h2, trivial⟩) (by ac) (by mn)
  · intro _; exact works_regReg (fun n m => .Cmovcc .QWORD .Ae (.reg n) (.reg (.reg m))) hX (by intros; sp) (fun h1 h2 => ⟨.name h1, .name h2, trivial⟩) (by ac) (by mn)
  · intro _; exact works_regReg (fun n m => .Cmovcc .QWORD .Eq (.reg n) (.reg (.reg m))) hX (by intros; sp) (fun h1 h2 => ⟨.name h1, .name h2, trivial⟩) (by ac) (by mn)
  · intro _; exact works_regReg (fun n m => .Cmovcc .QWORD .Ne (.reg n) (.reg (.reg m))) hX (by intros; sp) (fun h1 h2 => ⟨.name h1, .name h2, trivial⟩) (by ac) (by mn)
  · intro _; exact works_regReg (fun n m => .Cmovcc .QWORD .Be (.reg n) (.reg (.reg m))) hX (by intros; sp) (fun h1 h2 => ⟨.name h1, .name h2, trivial⟩) (by ac) (by mn)
  · intro _; exact works_regReg (fun n m => .Cmovcc .QWORD .A (.reg n) (.reg (.reg m))) hX (by intros; sp) (fun h1 h2 => ⟨.name h1, .name h2, trivial⟩) (by ac) (by mn)
  · intro _; exact works_regReg (fun n m => .Cmovcc .QWORD .S (.reg n) (.reg (.reg m))) hX (by intros; sp) (fun h1 h2 => ⟨.name h1, .name h2, trivial⟩) (by ac) (by mn)
  · intro _; exact works_regReg (fun n m => .Cmovcc .QWORD .Ns (.reg n) (.reg (.reg m))) hX (by intros; sp) (fun h1 h2 => ⟨.name h1, .name h2, trivial⟩) (by ac) (by mn)
  · intro _; exact works_regReg (fun n m => .Cmovcc .QWORD .Lt (.reg n) (.reg (.reg m))) hX (by intros; sp) (fun h1 h2 => ⟨.name h1, .name h2, trivial⟩) (by ac) (by mn)
  · intro _; exact works_regReg (fun n m => .Cmovcc .QWORD .Ge (.reg n) (.reg (.reg m))) hX (by intros; sp) (fun h1 h2 => ⟨.name h1, .name h2, trivial⟩) (by ac) (by mn)
  · intro _; exact works_regReg (fun n m => .Cmovcc .QWORD .Le (.reg n) (.reg (.reg m))) hX (by intros; sp) (fun h1 h2 => ⟨.name h1, .name h2, trivial⟩) (by ac) (by mn)
  · intro _; exact works_regReg (fun n m => .Cmovcc .QWORD .Gt (.reg n) (.reg (.reg m))) hX (by intros; sp) (fun h1 h2 => ⟨.name h1, .name h2, trivial⟩) (by ac) (by mn)
  · intro _; exact works_xmmXmm (fun n m => .Movsd (.xmm (.no n)) (.xmm (.no m))) hX (by intros; sp) (fun h h' => ⟨h, h', trivial⟩) (by ac) (by mn)
  · intro _; exact works_xmmXmm (fun n m => .Addsd (.no n) (.xmm (.no m))) hX (by intros; sp) (fun h h' => ⟨h, h', trivial⟩) (by ac) (by mn)
  · intro _; exact works_xmmXmm (fun n m => .Subsd (.no n) (.xmm (.no m))) hX (by intros; sp) (fun h h' => ⟨h, h', trivial⟩) (by ac) (by mn)
  · intro _; exact works_xmmXmm (fun n m => .Mulsd (.no n) (.xmm (.no m))) hX (by intros; sp) (fun h h' => ⟨h, h', trivial⟩) (by ac) (by mn)
  · intro _; exact works_xmmXmm (fun n m => .Divsd (.no n) (.xmm (.no m))) hX (by intros; sp) (fun h h' => ⟨h, h', trivial⟩) (by ac) (by mn)
  · intro _; exact works_xmmXmm (fun n m => .Xorps (.no n) (.xmm (.no m))) hX (by intros; sp) (fun h h' => ⟨h, h', trivial⟩) (by ac) (by mn)
  · intro _; exact works_cvtsi2sdq hX
  · intro _; exact works_xmmXmm (fun n m => .UComIsd (.no n) (.xmm (.no m))) hX (by intros; sp) (fun h h' => ⟨h, h', trivial⟩) (by ac) (by mn)
  · intro _; exact works_xmmXmm (fun n m => .Sqrtpd (.no n) (.xmm (.no m))) hX (by intros; sp) (fun h h' => ⟨h, h', trivial⟩) (by ac) (by mn)
  · intro _; exact works_xmmXmm (fun n m => .Sqrtsd (.no n) (.xmm (.no m))) hX (by intros; sp) (fun h h' => ⟨h, h', trivial⟩) (by ac) (by mn)
  · intro _; exact works_reg (fun n => .Pushq (.reg (.reg n))) hX (by intros; sp) (fun h => ⟨.name h, trivial⟩) (by ac) (by mn)
  · intro _; exact works_reg (fun n => .Popq (.reg (.reg n))) hX (by intros; sp) (fun h => ⟨.name h, trivial⟩) (by ac) (by mn)
  · intro _; exact works_label (fun l => .Call (.rel l)) hX (by intros; sp) (fun h => ⟨.rel h, trivial⟩) (by ac) (by mn)
  · intro _; exact works_none .Ret hX (by sp) rfl (by ac) (by mn)
  · intro _; exact works_label (fun l => .Jmp (.rel l)) hX (by intros; sp) (fun h => ⟨.rel h, trivial⟩) (by ac) (by mn)
  · intro _; exact works_label (fun l => .Jcc .Ne l) hX (by intros; sp) (fun h => ⟨rfl, trivial⟩) (by ac) (by mn)
  · intro _; exact works_label (fun l => .Jcc .Eq l) hX (by intros; sp) (fun h => ⟨rfl, trivial⟩) (by ac) (by mn)
  · intro _; exact works_label (fun l => .Jcc .Gt l) hX (by intros; sp) (fun h => ⟨rfl, trivial⟩) (by ac) (by mn)
  · intro _; exact works_label (fun l => .Jcc .Ge l) hX (by intros; sp) (fun h => ⟨rfl, trivial⟩) (by ac) (by mn)
  · intro _; exact works_label (fun l => .Jcc .Lt l) hX (by intros; sp) (fun h => ⟨rfl, trivial⟩) (by ac) (by mn)
  · intro _; exact works_label (fun l => .Jcc .Le l) hX (by intros; sp) (fun h => ⟨rfl, trivial⟩) (by ac) (by mn)
  · intro _; exact works_label (fun l => .Jcc .A l) hX (by intros; sp) (fun h => ⟨rfl, trivial⟩) (by ac) (by mn)
  · intro _; exact works_label (fun l => .Jcc .Ae l) hX (by intros; sp) (fun h => ⟨rfl, trivial⟩) (by ac) (by mn)
  · intro _; exact works_label (fun l => .Jcc .B l) hX (by intros; sp) (fun h => ⟨rfl, trivial⟩) (by ac) (by mn)
  · intro _; exact works_label (fun l => .Jcc .Be l) hX (by intros; sp) (fun h => ⟨rfl, trivial⟩) (by ac) (by mn)
  · intro _; exact works_none .Syscall hX (by sp) rfl (by ac) (by mn)
  · intro _; exact works_none .Leave hX (by sp) rfl (by ac) (by mn)
  · intro _; exact works_none .Int3 hX (by sp) rfl (by ac) (by mn)
  · intro _; exact works_dq hX
  · intro x hx; cases hx

/-- The three are listed, but whatever operands they are given, the macro fails. -/
theorem C43_violated (hX : Takes X) {s} (hs : s ∈ ["xchgl", "xchgw", "xchgb"]) :
    (s, .regReg) ∈ readme ∧ ∀ ops i rest ρ σ, parseInst X (.ident s :: ops) = .ok (i, rest) → ops.head? ≠ some (.punct ':') →
      ¬ Accepted (i.map ρ σ) := by
  refine ⟨by revert s; decide, ?_⟩
  intro ops i rest ρ σ h hc
  obtain ⟨pre, h1, h2⟩ := (parseInst_ok hX).1 h
  cases h2 with
  | label =>
    simp only [List.cons_append, List.nil_append, List.cons.injEq, Tok.ident.injEq] at h1
    rw [h1.2] at hc
    exact absurd rfl hc
  | @inst _ name tss h3 h4 =>
    simp only [List.cons_append, List.cons.injEq, Tok.ident.injEq] at h1
    obtain ⟨rfl, rfl⟩ := h1
    have e : parseOperands X s (commas tss ++ .punct ';' :: rest) = .ok (i, rest) := by
      rw [parseOperands_eq h3]; exact parserOf_complete hX h3 h4
    have key : ∃ sz, sz ≠ .QWORD ∧ s ∈ spellings (.Xchg sz (.reg (.reg 0)) (.reg (.reg 0)) : TInst) := by
      simp only [List.mem_cons, List.not_mem_nil, or_false] at hs
      rcases hs with rfl | rfl | rfl
      · exact ⟨.DWORD, by decide, List.Mem.head _⟩
      · exact ⟨.WORD, by decide, List.Mem.head _⟩
      · exact ⟨.BYTE, by decide, List.Mem.head _⟩
    obtain ⟨sz, hsz, hsp⟩ := key
    rw [parseOperands_eq hsp] at e
    obtain ⟨a, b, ta, tb, rfl, -⟩ := (parse2_ok (reads_rm hX) (reads_rm hX)).1 e
    rintro ⟨m, hm⟩
    cases sz
    · exact hsz rfl
    all_goals cases hm

/-- So the property fails. -/
theorem C43_false (hX : Takes X) : ¬ ∀ e ∈ readme, Works X e.1 e.2 := by
  intro h
  have hv := C43_violated hX (s := "xchgl") (by decide)
  obtain ⟨i, h1, h2⟩ := h _ hv.1 _ (.regReg (r := "rax") (s := "rax") (by decide) (by decide))
  exact hv.2 _ _ _ (fun _ => 0) (fun _ => 0) h1 (by simp) (h2 _ _).1

/-- `cmovnsq r9, rax;` -/
example : ∃ i, parseInst exExpr [.ident "cmovnsq", .ident "r9", .punct ',', .ident "rax", .punct ';'] = .ok (i, [])
    ∧ ∀ ρ σ, Accepted (i.map ρ σ) ∧ (Valid (i.map ρ σ) ∨ ∃ v, i = .I64 v) :=
  C43_partial takes_exExpr ("cmovnsq", .regReg) (by decide) (by decide) _ (.regReg (by decide) (by decide))

/-- `xchgl rax, rcx;` is parsed. -/
example : ∃ i, parseInst exExpr [.ident "xchgl", .ident "rax", .punct ',', .ident "rcx", .punct ';'] = .ok (i, [])
    ∧ ¬ Accepted (i.map (fun _ => 0) fun _ => 0) :=
  ⟨_, rfl, (C43_violated takes_exExpr (s := "xchgl") (by decide)).2
    [.ident "rax", .punct ',', .ident "rcx", .punct ';'] _ [] _ _ rfl (by simp)⟩

end Monoasm
