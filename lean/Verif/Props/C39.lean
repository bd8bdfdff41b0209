import Verif.Proofs.Ranges
import Verif.Proofs.WideIndex
import Verif.Proofs.Encoded
import Verif.Proofs.Correct
/-
  C39: computed registers.

  `R(e)` and `xmm(e)` with `e < 16` designate register number `e`. The second half of the property is
  false: `Reg::from` truncates `e` to 8 bits and does not check the range.
-/

namespace Monoasm
open Spec

/-- Replacing every computed register by the register of that number, written by name, does not
    change the code generated, in any state. (For `e < 256`; only `e < 16` are registers.) -/
theorem C39_named_partial (i : Inst Val Nat) : compile (i.mapRegs named namedXmm) = compile i := compile_named i

/-- For `e < 16` the computed register denotes register `e`. -/
theorem C39_number_partial (e : Val) (h : e < 16) :
    gpr (.expr e) = some (e.setWidth 4) ∧ gpr (named (.expr e)) = some (e.setWidth 4)
    ∧ Spec.xmm (.expr e) = some (e.setWidth 4) ∧ Spec.xmm (namedXmm (.expr e)) = some (e.setWidth 4) := by
  have e1 : (e.setWidth 8).setWidth 64 = e := by
    rw [BitVec.lt_def] at h
    apply BitVec.eq_of_toNat_eq
    have : (16 : Val).toNat = 16 := rfl
    simp only [BitVec.toNat_setWidth]
    omega
  simp only [gpr, Spec.xmm, named, namedXmm, regVal, xmmVal, e1, h, if_true, and_self]

/-- **A value outside the register file silently selects another register**: `pushq R(256)` is
    assembled as `pushq rax`, in every state. -/
theorem C39_wrong : gpr (.expr 256) = none
    ∧ compile (.Pushq (.reg (.expr 256))) = compile (.Pushq (.reg (.reg 0))) := ⟨rfl, rfl⟩

/-- `movq R(17), rax` is assembled as `movq rcx, rax`. -/
theorem C39_wrong_17 : gpr (.expr 17) = none
    ∧ compile (.Movq (.reg (.expr 17)) (.reg (.reg 0))) = compile (.Movq (.reg (.reg 1)) (.reg (.reg 0))) := by
  refine ⟨rfl, ?_⟩
  rw [compile_eq, compile_eq]
  rfl

/-- In general: of every value outside the register file whose low byte is less than 16, the code
    takes register number `e mod 16` (with `C39_named_partial`), although it designates no register. -/
theorem C39_wraps (e : Val) (h : ¬ e < 16) (h8 : e.setWidth 8 < 16) :
    gpr (.expr e) = none ∧ gpr (named (.expr e)) = some (e.setWidth 4)
    ∧ Spec.xmm (.expr e) = none ∧ Spec.xmm (namedXmm (.expr e)) = some (e.setWidth 4) := by
  have h1 : (e.setWidth 8).setWidth 64 < (16 : Val) := by
    rw [BitVec.lt_def] at h8 ⊢
    have a : (16 : Val).toNat = 16 := rfl
    have b : (16 : BitVec 8).toNat = 16 := rfl
    simp only [BitVec.toNat_setWidth, a, b] at h8 ⊢
    omega
  have h2 : ((e.setWidth 8).setWidth 64).setWidth 4 = e.setWidth 4 := by
    apply BitVec.eq_of_toNat_eq
    simp only [BitVec.toNat_setWidth]
    omega
  simp only [gpr, Spec.xmm, named, namedXmm, regVal, xmmVal, h, h1, h2, if_true, if_false, and_self]

/-- What is assembled in general: whatever the values of computed registers are, if the statement is
    assembled then its code is that of the statement with the register numbers reduced modulo 16 (16 itself,
    modulo 256, is `rip`). Exchanges with other multiples of 16 are excluded, see `C39_xchg`. -/
theorem C39_reduces (i : Inst Val Nat) (hx : PlainXchg i) (h1 : ∀ a b c, i ≠ .Roundpd a b c)
    (h2 : ∀ a b, i ≠ .Cvttsd2siq a b) {s s' la mem I} (h : Runs i s s') (hl : Linked s s' la mem) (hn : Near la (here s'))
    (hM : meaning (dist la (here s')) (i.mapRegs reduced reducedXmm) = some I) (rest) :
    X86.decode (bytes mem (here s) (here s' - here s) ++ rest) = some (I, rest) :=
  reduced_faithful hx h1 h2 h hl hn hM rest

/-- Every statement that is assembled: it denotes an instruction when register numbers are reduced modulo 16
    and an index `rsp` is left out (see C38), and its code is that of this instruction (with the known
    exceptions `roundpd` and `cvttsd2siq`, see `encoded`). -/
theorem C39_encoded (i : Inst Val Nat) (hw : Legible i) (hx : PlainXchg i) (h1 : ∀ l, i ≠ .Label l)
    (h2 : ∀ v, i ≠ .I64 v) (h3 : ∀ v, i ≠ .F64 v) {s s' la mem} (h : Runs i s s') (hl : Linked s s' la mem)
    (hn : ∀ x, here s ≤ x → x ≤ here s' → Near la x) :
    Valid ((i.mapRegs reduced reducedXmm).mapAddr dropRsp)
      ∧ ∃ I, encoded (dist la (here s')) ((i.mapRegs reduced reducedXmm).mapAddr dropRsp) = some I
      ∧ ∀ rest, X86.decode (bytes mem (here s) (here s' - here s) ++ rest) = some (I, rest) := by
  have hv : Valid ((i.mapRegs reduced reducedXmm).mapAddr dropRsp) := ⟨_, encoded_valid hw hx h h1 h2 h3 (dist la (here s'))⟩
  obtain ⟨I, hI⟩ := encoded_some hv (dist la (here s'))
  exact ⟨hv, I, hI, encoded_faithful hx h hl hn hI⟩

/-- `movq R(19), [rbx + R(260)*2]`: the code is that of `movq rbx, [rbx]`. -/
example {s s' la mem} (h : Runs (.Movq (.reg (.expr 19)) (.ind ⟨.reg 3, .s1 1 (.expr 260), .imm 0⟩)) s s')
    (hl : Linked s s' la mem) (hn : ∀ x, here s ≤ x → x ≤ here s' → Near la x) (rest) :
    X86.decode (bytes mem (here s) (here s' - here s) ++ rest) = some (.mov .q (.gpr 3) (.mem ⟨.gpr 3, none, 0⟩), rest) := by
  obtain ⟨-, I, hI, hd⟩ := C39_encoded _ ⟨by simp [Inst.regs, MovOperand.regs, IndAddr.regs], by simp [Inst.xmms, MovOperand.xmms],
    by simp [Inst.addrs, MovOperand.addrs]⟩ (by simp [PlainXchg])
    (by simp) (by simp) (by simp) h hl hn
  have e : some (X86.Instr.mov .q (.gpr 3) (.mem ⟨.gpr 3, none, 0⟩)) = some I := hI
  rw [hd, Option.some.inj e]

/-- It is assembled. -/
example : ∃ s', Runs (.Movq (.reg (.expr 19)) (.ind ⟨.reg 3, .s1 1 (.expr 260), .imm 0⟩)) ex0 s' := ⟨_, _, rfl, rfl⟩

/-- `cvttsd2siq R(17), xmm(18)` is assembled as the conversion from `xmm2` to `ecx`. -/
example {s s' la mem} (h : Runs (.Cvttsd2siq (.expr 17) (.xmm (.expr 18))) s s')
    (hl : Linked s s' la mem) (hn : ∀ x, here s ≤ x → x ≤ here s' → Near la x) (rest) :
    X86.decode (bytes mem (here s) (here s' - here s) ++ rest) = some (.cvttf2si .sd .d (.gpr 1) (.xmm 2), rest) := by
  obtain ⟨-, I, hI, hd⟩ := C39_encoded _ ⟨by simp [Inst.regs, XmOperand.regs], by simp [Inst.xmms, XmOperand.xmms, xmmVal],
    by simp [Inst.addrs, XmOperand.addrs]⟩ (by simp [PlainXchg])
    (by simp) (by simp) (by simp) h hl hn
  have e : some (X86.Instr.cvttf2si .sd .d (.gpr 1) (.xmm 2)) = some I := hI
  rw [hd, Option.some.inj e]

/-- Whole `monoasm!` calls: disassembling the code gives back the statements, with register numbers reduced
    modulo 16 and without an index `rsp`. -/
theorem C39_listing {is : List (Inst Val Nat)} {s s' la mem} (h : RunsAll is s s')
    (hw : ∀ i ∈ is, Legible i ∧ PlainXchg i) (hl : Linked s s' la mem)
    (hn : ∀ x, here s ≤ x → x ≤ here s' → Near la x) (tail : List Byte) :
    Listing encoded la (here s) (bytes mem (here s) (here s' - here s) ++ tail)
      (is.map fun i => (i.mapRegs reduced reducedXmm).mapAddr dropRsp) tail := by
  refine listing_map h (fun i hi => ?_) hl hn tail
  by_cases h1 : ∃ l, i = .Label l
  · obtain ⟨l, rfl⟩ := h1
    exact .inr (.inl ⟨l, rfl, rfl⟩)
  by_cases h2 : ∃ v, i = .I64 v
  · obtain ⟨v, rfl⟩ := h2
    exact .inr (.inr (.inl ⟨v, rfl, rfl⟩))
  by_cases h3 : ∃ v, i = .F64 v
  · obtain ⟨v, rfl⟩ := h3
    exact .inr (.inr (.inr ⟨v, rfl, rfl⟩))
  · exact .inl fun s s' hs hl hn => (C39_encoded i (hw i hi).1 (hw i hi).2 (fun l e => h1 ⟨l, e⟩) (fun v e => h2 ⟨v, e⟩)
      (fun v e => h3 ⟨v, e⟩) hs hl hn).2

/-- `addl R(17), R(34); ret` is assembled, and its disassembly is `addl rcx, rdx; ret`. -/
example : ∃ s' mem, RunsAll [.Add .DWORD (.reg (.expr 17)) (.reg (.expr 34)), .Ret] ex0 s'
    ∧ Listing encoded (fun _ => here s') (here ex0) (bytes mem (here ex0) (here s' - here ex0))
      [.Add .DWORD (.reg (.reg 1)) (.reg (.reg 2)), .Ret] [] := by
  obtain ⟨s', h, hs⟩ : ∃ s', RunsAll [.Add .DWORD (.reg (.expr 17)) (.reg (.expr 34)), .Ret] ex0 s' ∧ here s' = here ex0 + 4 :=
    ⟨_, ⟨_, rfl, rfl⟩, rfl⟩
  obtain ⟨mem, hl⟩ := linkableAll h fun _ => here s'
  refine ⟨s', mem, h, ?_⟩
  have := C39_listing h (fun i hi => ?_) hl (fun x h1 h2 l => by dsimp only; constructor <;> omega) []
  · rwa [List.append_nil] at this
  · rcases List.mem_cons.1 hi with rfl | hi
    · exact ⟨⟨by simp [Inst.regs, RmOperand.regs, RmiOperand.regs], by simp [Inst.xmms],
        by simp [Inst.addrs, RmOperand.addrs, RmiOperand.addrs]⟩, by simp [PlainXchg]⟩
    · cases List.mem_singleton.1 hi
      exact ⟨⟨by simp [Inst.regs], by simp [Inst.xmms], by simp [Inst.addrs]⟩, by simp [PlainXchg]⟩

/-- `addl R(17), R(34)` is assembled, and is `add ecx, edx`; it has no meaning. -/
example : ∃ s', Runs (.Add .DWORD (.reg (.expr 17)) (.reg (.expr 34))) ex0 s' ∧ (∀ rest,
    X86.decode (bytes s'.mem (here ex0) (here s' - here ex0) ++ rest) = some (.alu .add .d (.gpr 1) (.gpr 2), rest))
    ∧ ∀ rel, meaning rel (.Add .DWORD (.reg (.expr 17)) (.reg (.expr 34))) = none := by
  obtain ⟨s', h⟩ : ∃ s', Runs (.Add .DWORD (.reg (.expr 17)) (.reg (.expr 34))) ex0 s' := ⟨_, _, rfl, rfl⟩
  refine ⟨s', h, fun rest => ?_, fun _ => rfl⟩
  exact C39_reduces _ (by simp [PlainXchg]) (by simp) (by simp) h
    (linked_self h (by simp [Inst.mentions, Inst.labels, RmOperand.labels, RmiOperand.labels]) fun _ => here s')
    (fun _ => by dsimp only; constructor <;> omega) rfl rest

/-- `testq R(32), 5` has the code of `testq rax, 5` (not the shortest one). -/
example {s s' la mem} (h : Runs (.Testq (.reg (.expr 32)) (.imm 5)) s s') (hl : Linked s s' la mem) (hn : Near la (here s')) (rest) :
    X86.decode (bytes mem (here s) (here s' - here s) ++ rest) = some (.test .q (.gpr 0) (.imm 5), rest) :=
  C39_reduces _ (by simp [PlainXchg]) (by simp) (by simp) h hl hn rfl rest

/-- `xchgq R(32), rax` has the code of a `nop`. -/
example {s s' la mem} (h : Runs (.Xchg .QWORD (.reg (.expr 32)) (.reg (.reg 0))) s s') (hl : Linked s s' la mem)
    (hn : Near la (here s')) (rest) : X86.decode (bytes mem (here s) (here s' - here s) ++ rest) = some (.nop, rest) :=
  C39_reduces _ (by rintro p q ⟨⟩ _ h; exact absurd rfl h) (by simp) (by simp) h hl hn rfl rest

/-- Exchanges of two registers, neither of them given by a number that is 0 or 16 modulo 256: the code is that of the exchange of
    the registers whose numbers are these modulo 16, in this order. -/
theorem C39_xchg {p q : Register Val} (hp : (regVal p).setWidth 8 ≠ 0#8 ∧ (regVal p).setWidth 8 ≠ 16#8)
    (hq : (regVal q).setWidth 8 ≠ 0#8 ∧ (regVal q).setWidth 8 ≠ 16#8) {s s' la mem}
    (h : Runs (.Xchg .QWORD (.reg p) (.reg q)) s s') (hl : Linked s s' la mem) (rest) :
    X86.decode (bytes mem (here s) (here s' - here s) ++ rest)
      = some (.xchg .q (.gpr ((regVal p).setWidth 4)) (.gpr ((regVal q).setWidth 4)), rest) :=
  xchg_faithful hp hq h hl rest

/-- `xchgq R(32), rbx`. -/
example {s s' la mem} (h : Runs (.Xchg .QWORD (.reg (.expr 32)) (.reg (.reg 3))) s s') (hl : Linked s s' la mem) (rest) :
    X86.decode (bytes mem (here s) (here s' - here s) ++ rest) = some (.xchg .q (.gpr 0) (.gpr 3), rest) :=
  C39_xchg (by decide) (by decide) h hl rest

/-- It is assembled. -/
example : ∃ s', Runs (.Xchg .QWORD (.reg (.expr 32)) (.reg (.reg 3))) ex0 s' := ⟨_, _, rfl, rfl⟩

/-- `R(e)` as the index register of an address is checked to some extent: if the low byte of `e` is
    16 or more the statement is never assembled, in no state. -/
theorem C39_index_partial (i : Inst Val Nat) {a sc r} (ha : a ∈ i.addrs) (hs : a.scale = .s1 sc r)
    (hr : 16 ≤ (regVal r).setWidth 8) (s s') : ¬ Runs i s s' := by
  intro h
  obtain ⟨its, hi, hran⟩ := runs_items h
  refine items_wide hi hran.noFail ha ⟨sc, r, hs, ?_⟩
  cases r with
  | reg n => simpa [regVal, Register.toReg, Reg.from] using hr
  | expr e => simpa [regVal, Register.toReg, Reg.from] using hr

/-- `movq rax, [rbx + R(17) * 4]` is not assembled. -/
example (s s') : ¬ Runs (.Movq (.reg (.reg 0)) (.ind ⟨.reg 3, .s1 2 (.expr 17), .imm 0⟩)) s s' :=
  C39_index_partial _ (a := ⟨.reg 3, .s1 2 (.expr 17), .imm 0⟩) (by simp [Inst.addrs, MovOperand.addrs]) rfl (by decide) s s'

/-- `R(260)` selects `rsp`. -/
example : gpr (.expr 260) = none ∧ gpr (named (.expr 260)) = some 4 :=
  let h := C39_wraps 260 (by decide) (by decide)
  ⟨h.1, h.2.1⟩

/-- `movq R(9), xmm(3)` is `movq r9, xmm3`. -/
example : compile (.Movq (.reg (.expr 9)) (.xmm (.expr 3))) = compile (.Movq (.reg (.reg 9)) (.xmm (.no 3))) :=
  (C39_named_partial (.Movq (.reg (.expr 9)) (.xmm (.expr 3)))).symm

end Monoasm
