import Verif.Spec.Ranges
import Verif.Proofs.Correct
/-
  Computed registers, and statements that denote no instruction.
-/

set_option linter.unusedSimpArgs false

namespace Monoasm
open Spec

/-! ### Computed registers -/

theorem toReg_named (r : Register Val) : (named r).toReg = r.toReg := by
  cases r with
  | reg n => rfl
  | expr e =>
    simp only [named, Register.toReg, Reg.from]
    congr 1
    apply BitVec.eq_of_toNat_eq; simp [BitVec.toNat_setWidth]

theorem toReg_namedXmm (x : XmmReg Val) : (namedXmm x).toReg = x.toReg := by
  cases x with
  | no n => rfl
  | expr e =>
    simp only [namedXmm, XmmReg.toReg, Reg.from]
    congr 1
    apply BitVec.eq_of_toNat_eq; simp [BitVec.toNat_setWidth]

theorem toRm_addr (a : IndAddr Val Nat) : (a.mapRegs named).toRm = a.toRm := by
  obtain ⟨b, sc, d⟩ := a
  cases sc <;> simp [IndAddr.mapRegs, IndAddr.toRm, toReg_named, MScale.toScale]

theorem toRm_rm (o : RmOperand Val Nat) : (o.mapRegs named).toRm = o.toRm := by
  cases o <;> simp [RmOperand.mapRegs, RmOperand.toRm, toReg_named, toRm_addr]

theorem toRm_xm (o : XmOperand Val Nat) : (o.mapRegs named namedXmm).toRm = o.toRm := by
  cases o <;> simp [XmOperand.mapRegs, XmOperand.toRm, toReg_namedXmm, toRm_addr]

theorem binary_named (sz o d a b) :
    It.binary_op sz o d (RmOperand.mapRegs named a) (RmiOperand.mapRegs named b) = It.binary_op sz o d a b := by
  cases sz <;> cases a <;> cases b <;>
    simp [It.binary_op, It.binary_opq, It.binary_opl, It.binary_opw, It.binary_opb, RmOperand.mapRegs,
      RmiOperand.mapRegs, toReg_named, toRm_addr, RmOperand.toRm]

theorem shift_named (sz d a b) :
    It.shift_op sz d (RmOperand.mapRegs named a) (RiOperand.mapRegs named b) = It.shift_op sz d a b := by
  cases sz <;> cases b <;>
    simp [It.shift_op, RiOperand.mapRegs, toReg_named, toRm_rm]

theorem items_named (i : Inst Val Nat) : items (i.mapRegs named namedXmm) = items i := by
  cases i
  case Movq a b =>
    cases a <;> cases b <;>
      simp only [items, Inst.mapRegs, MovOperand.mapRegs, It.movq, toReg_named, toReg_namedXmm, toRm_addr]
    rename_i sz; cases sz <;> simp [It.movq, toRm_addr]
  case Movl a b | Movw a b | Movb a b =>
    cases a <;> cases b <;>
      simp [items, Inst.mapRegs, RmOperand.mapRegs, RmiOperand.mapRegs, It.movl, It.movw, It.movb, toReg_named, toRm_addr,
        RmOperand.toRm]
  case Add | Sub | Adc | Sbb | And | Or | Xor | Cmp => exact binary_named ..
  case Shl | Shr | Sal | Sar | Rol | Ror => exact shift_named ..
  case Xchg sz a b =>
    cases sz <;> cases a <;> cases b <;>
      simp [items, Inst.mapRegs, RmOperand.mapRegs, toReg_named, toRm_addr]
  case Testq a b | Testb a b =>
    cases a <;> cases b <;>
      simp [items, Inst.mapRegs, RmOperand.mapRegs, RiOperand.mapRegs, toReg_named, toRm_addr, RmOperand.toRm]
  case Imul a b =>
    cases a <;> cases b <;> simp [items, Inst.mapRegs, RmiOperand.mapRegs, toReg_named, toRm_addr]
  case Lea a b =>
    cases a <;> cases b <;> simp [items, Inst.mapRegs, RmOperand.mapRegs, toReg_named, toRm_addr]
  case Movsd a b =>
    cases a <;> cases b <;>
      simp [items, Inst.mapRegs, XmOperand.mapRegs, It.sd, toReg_namedXmm, toRm_addr, XmOperand.toRm]
  case Pushq a | Popq a =>
    cases a <;> simp [items, Inst.mapRegs, RmOperand.mapRegs, It.push_pop, toReg_named, toRm_addr]
  case Jmp d | Call d =>
    cases d <;> simp [items, Inst.mapRegs, Dest.mapRegs, toRm_addr]
  case Cmovcc sz _ _ _ | Lzcnt sz _ _ | Tzcnt sz _ _ | Popcnt sz _ _ =>
    cases sz <;> simp [items, Inst.mapRegs, It.count_op, toReg_named, toRm_rm]
  all_goals simp [items, Inst.mapRegs, It.sd, toReg_named, toReg_namedXmm, toRm_rm, toRm_xm]

theorem compile_named (i : Inst Val Nat) : compile (i.mapRegs named namedXmm) = compile i := by
  rw [compile_eq, compile_eq, items_named]

/-! ### Statements that denote nothing -/

theorem gpr_of_not_rip {r : Register Val} (h1 : regVal r ≤ 16) (h2 : r.toReg.is_rip = false) : ∃ g, gpr r = some g := by
  have h3 : regVal r ≠ 16 := by
    intro h
    have : r.toReg = Reg.rip := by
      cases r with
      | reg n => simp only [regVal] at h; simp only [Register.toReg, h]; rfl
      | expr e => simp only [regVal] at h; simp only [Register.toReg, h]; rfl
    simp [Reg.is_rip, this] at h2
  have : regVal r < 16 := by
    rw [BitVec.lt_def]; rw [BitVec.le_def] at h1
    have : (regVal r).toNat ≠ (16 : Val).toNat := fun h => h3 (BitVec.eq_of_toNat_eq h)
    omega
  exact ⟨_, by simp only [gpr, this, if_true]; rfl⟩

theorem xmm_of_range {x : XmmReg Val} (h : xmmVal x < 16) : ∃ g, Spec.xmm x = some g :=
  ⟨_, by simp only [Spec.xmm, h, if_true]; rfl⟩

theorem rip_iff_val {r : Register Val} (h1 : regVal r ≤ 16) : r.toReg.is_rip = true ↔ regVal r = 16 := by
  constructor
  · intro h
    have h' : r.toReg = Reg.rip := by simpa [Reg.is_rip] using h
    have h2 : (regVal r).setWidth 8 = 16#8 := by
      cases r with
      | reg n =>
        simp only [Register.toReg, Reg.from, Reg.rip, Reg.mk.injEq] at h'
        exact h'
      | expr e =>
        simp only [Register.toReg, Reg.from, Reg.rip, Reg.mk.injEq] at h'
        exact h'
    have h3 := congrArg BitVec.toNat h2
    rw [BitVec.le_def] at h1
    apply BitVec.eq_of_toNat_eq
    have e16 : (16 : Val).toNat = 16 := rfl
    rw [e16] at h1 ⊢
    simp only [BitVec.toNat_setWidth, BitVec.toNat_ofNat] at h3
    omega
  · intro h
    cases e : r.toReg.is_rip
    · obtain ⟨g, hg⟩ := gpr_of_not_rip h1 e
      simp [gpr, h] at hg
    · rfl

theorem fail_mem_append {e} {a b : List Item} (h : Item.fail e ∉ a ++ b) : Item.fail e ∉ a ∧ Item.fail e ∉ b := by
  simpa using h

/-- A memory operand that is encoded denotes an address. -/
theorem addr_of_enc {op k mm imm} {a : IndAddr Val Nat} (h : NoFail (encItems op k mm a.toRm imm)) (rel)
    (h1 : ∀ r ∈ a.regs, regVal r ≤ 16) (h2 : ∀ sc r, a.scale = .s1 sc r → sc < 4) :
    ∃ A, addr rel (dropRsp a) = some A := by
  obtain ⟨base, scale, dd⟩ := a
  have hb := h1 base (by simp [IndAddr.regs])
  simp only [encItems, IndAddr.toRm, Rm.ind] at h
  split at h
  · exact absurd (by simp) (h .assertFailed)
  cases scale with
  | none =>
    show ∃ A, addr rel ⟨base, .none, dd⟩ = some A
    simp only [addr]
    by_cases hr : regVal base = 16
    · exact ⟨_, by rw [if_pos hr]⟩
    · rw [if_neg hr]
      obtain ⟨g, hg⟩ := gpr_of_not_rip hb (by
        cases e : base.toReg.is_rip
        · rfl
        · exact absurd ((rip_iff_val hb).1 e) hr)
      exact ⟨_, by rw [hg]; rfl⟩
  | s1 sc r =>
    have hr := h1 r (by simp [IndAddr.regs])
    have hsc := h2 sc r rfl
    simp only [MScale.toScale] at h
    cases e : base.toReg.is_rip
    · simp only [e, Bool.false_eq_true, if_false] at h
      have hsib : sibItem sc r.toReg base.toReg ≠ .fail .assertFailed := by
        intro hf
        by_cases hq : base.toReg.num &&& 7 = 4
        · simp only [hq, if_true] at h
          exact h .assertFailed (by simp [hf])
        · simp only [hq, if_false] at h
          exact h .assertFailed (by simp [scaleItems, hf])
      obtain ⟨g, hg⟩ := gpr_of_not_rip hb e
      obtain ⟨g2, hg2⟩ := gpr_of_not_rip hr (by
        cases e2 : r.toReg.is_rip
        · rfl
        · exfalso; apply hsib
          have e3 : r.toReg.num = 16 := by
            have : r.toReg = Reg.rip := by simpa [Reg.is_rip] using e2
            rw [this]; rfl
          simp [sibItem, e3])
      have hb16 : regVal base ≠ 16 := fun h => by
        rw [(rip_iff_val hb).2 h] at e; cases e
      by_cases hr4 : regVal r = 4
      · exact ⟨_, by simp only [dropRsp, hr4, hsc, hb16, true_and, ne_eq, not_false_eq_true, if_true, addr, if_false, hg]; rfl⟩
      · have hne : g2 ≠ 4#4 := by
          rintro rfl
          apply hr4
          simp only [gpr] at hg2
          split at hg2
          · rename_i hlt
            simp only [Option.some.injEq] at hg2
            have := congrArg BitVec.toNat hg2
            rw [BitVec.lt_def] at hlt
            apply BitVec.eq_of_toNat_eq
            have e16 : (16 : Val).toNat = 16 := rfl
            have e4 : (4 : Val).toNat = 4 := rfl
            rw [e16] at hlt
            rw [e4]
            simp only [BitVec.toNat_setWidth, BitVec.toNat_ofNat] at this
            omega
          · simp at hg2
        exact ⟨_, by simp only [dropRsp, hr4, false_and, if_false, addr, hg, hg2, Option.bind_eq_bind, Option.bind_some, hne, hsc, if_true]; rfl⟩
    · simp only [e, if_true, Rm.rip_ind_from] at h
      exact absurd (by simp) (h .unimplemented)

theorem rm_of_enc {op k mm imm} {o : RmOperand Val Nat} (h : NoFail (encItems op k mm o.toRm imm)) (rel)
    (h1 : ∀ r ∈ o.regs, regVal r ≤ 16) (h2 : ∀ a ∈ o.addrs, ∀ sc r, a.scale = .s1 sc r → sc < 4) :
    ∃ A, rm rel (o.mapAddr dropRsp) = some A := by
  cases o with
  | reg r =>
    obtain ⟨g, hg⟩ := gpr_of_not_rip (h1 r (by simp [RmOperand.regs])) (by
      cases e : r.toReg.is_rip
      · rfl
      · exfalso
        simp only [encItems, RmOperand.toRm, Rm.reg] at h
        split at h
        · exact absurd (by simp) (h .assertFailed)
        · simp only [e, if_true, Rm.rip_ind_from] at h
          exact absurd (by simp) (h .unimplemented))
    exact ⟨_, by simp only [RmOperand.mapAddr, rm, hg]; rfl⟩
  | ind a =>
    obtain ⟨A, hA⟩ := addr_of_enc (a := a) h rel (fun r hr => h1 r hr) (h2 a (by simp [RmOperand.addrs]))
    exact ⟨_, by simp only [RmOperand.mapAddr, rm, hA]; rfl⟩

theorem reg_of_enc {op k r rm imm} (h : NoFail (encItems op k (.reg r) rm imm)) : r.is_rip = false := by
  simp only [encItems, modrmReg] at h
  cases e : r.is_rip
  · rfl
  · simp only [e, if_true] at h; exact absurd (by simp) (h .assertFailed)

theorem reg_of_o {k op r} (h : NoFail (It.o k op r)) : r.is_rip = false := by
  simp only [It.o] at h
  cases e : r.is_rip
  · rfl
  · simp only [e, if_true] at h; exact absurd (by simp) (h .assertFailed)

theorem noFail_tail {i is} (h : NoFail (i :: is)) : NoFail is := fun e he => h e (by simp [he])
theorem noFail_left {a b} (h : NoFail (a ++ b)) : NoFail a := fun e he => h e (by simp [he])
theorem noFail_fail {e is} (h : NoFail (.fail e :: is)) : False := h e (by simp)

/-- The registers, scales and indexes of an operand are in range. -/
def RmOk (o : RmOperand Val Nat) : Prop :=
  (∀ r ∈ o.regs, regVal r ≤ 16) ∧ ∀ a ∈ o.addrs, ∀ sc r, a.scale = .s1 sc r → sc < 4
def AddrOk (a : IndAddr Val Nat) : Prop :=
  (∀ r ∈ a.regs, regVal r ≤ 16) ∧ ∀ sc r, a.scale = .s1 sc r → sc < 4

theorem RmOk.ind {a} (h : RmOk (.ind a)) : AddrOk a := ⟨h.1, h.2 a (by simp [RmOperand.addrs])⟩
theorem RmOk.reg {r} (h : RmOk (.reg r)) : regVal r ≤ 16 := h.1 r (by simp [RmOperand.regs])

def RmiOk (o : RmiOperand Val Nat) : Prop :=
  (∀ r ∈ o.regs, regVal r ≤ 16) ∧ ∀ a ∈ o.addrs, ∀ sc r, a.scale = .s1 sc r → sc < 4
theorem RmiOk.ind {a} (h : RmiOk (.ind a)) : AddrOk a := ⟨h.1, h.2 a (by simp [RmiOperand.addrs])⟩
theorem RmiOk.reg {r} (h : RmiOk (.reg r)) : regVal r ≤ 16 := h.1 r (by simp [RmiOperand.regs])

def XmOk (o : XmOperand Val Nat) : Prop :=
  (∀ r ∈ o.regs, regVal r ≤ 16) ∧ (∀ x ∈ o.xmms, xmmVal x < 16)
    ∧ ∀ a ∈ o.addrs, ∀ sc r, a.scale = .s1 sc r → sc < 4
theorem XmOk.ind {a} (h : XmOk (.ind a)) : AddrOk a := ⟨h.1, h.2.2 a (by simp [XmOperand.addrs])⟩
theorem XmOk.xmm {r} (h : XmOk (.xmm r)) : xmmVal r < 16 := h.2.1 r (by simp [XmOperand.xmms])

section
variable {op : List Byte} {k : Rex} {mm : ModRM} {imm : Imm} (rel : Nat → BitVec 64)

theorem ok_addr {a} (h : NoFail (encItems op k mm (IndAddr.toRm a) imm)) (ha : AddrOk a) : ∃ A, addr rel (dropRsp a) = some A :=
  addr_of_enc h rel ha.1 ha.2
theorem ok_rm {a} (h : NoFail (encItems op k mm (RmOperand.toRm a) imm)) (ha : RmOk a) : ∃ A, rm rel (a.mapAddr dropRsp) = some A :=
  rm_of_enc h rel ha.1 ha.2
theorem ok_rmreg {r} (h : NoFail (encItems op k mm (Rm.reg (Register.toReg r)) imm)) (ha : regVal r ≤ 16) : ∃ g, gpr r = some g := by
  obtain ⟨A, hA⟩ := rm_of_enc (o := .reg r) h (fun _ => 0) (by simpa [RmOperand.regs] using ha) (by simp [RmOperand.addrs])
  cases hg : gpr r
  · simp [RmOperand.mapAddr, rm, hg] at hA
  · exact ⟨_, rfl⟩
theorem ok_reg {r rm} (h : NoFail (encItems op k (.reg (Register.toReg r)) rm imm)) (ha : regVal r ≤ 16) : ∃ g, gpr r = some g :=
  gpr_of_not_rip ha (reg_of_enc h)
theorem ok_xm {o} (h : NoFail (encItems op k mm (XmOperand.toRm o) imm)) (ha : XmOk o) : ∃ A, xm rel (o.mapAddr dropRsp) = some A := by
  cases o with
  | xmm x => obtain ⟨g, hg⟩ := xmm_of_range ha.xmm; exact ⟨_, by simp only [XmOperand.mapAddr, xm, hg]; rfl⟩
  | ind a => obtain ⟨A, hA⟩ := ok_addr rel h ha.ind; exact ⟨_, by simp only [XmOperand.mapAddr, xm, hA]; rfl⟩
theorem ok_o {op r} (h : NoFail (It.o k op (Register.toReg r))) (ha : regVal r ≤ 16) : ∃ g, gpr r = some g :=
  gpr_of_not_rip ha (reg_of_o h)
end

theorem not_notBothMem_gpr (r o) : notBothMem (.gpr r) o = true := rfl
theorem notBothMem_gpr (a r) : notBothMem a (.gpr r) = true := by cases a <;> rfl
theorem notBothMem_imm (a r) : notBothMem a (.imm r) = true := by cases a <;> rfl

/-- Two-operand integer instructions: whatever is emitted contains the encodings of the operands. -/
inductive Two (a : RmOperand Val Nat) (b : RmiOperand Val Nat) : Prop where
  | imm (i) (hb : b = .imm i) (op k mm imm) (h : NoFail (encItems op k mm a.toRm imm))
  | immo (i r) (hb : b = .imm i) (ha : a = .reg r) (k op) (h : NoFail (It.o k op r.toReg))
  | immrax (i r) (hb : b = .imm i) (ha : a = .reg r) (h : r.toReg.is_rip = false)
  | reg (r) (hb : b = .reg r) (op k imm) (h : NoFail (encItems op k (.reg r.toReg) a.toRm imm))
  | ind (r m) (ha : a = .reg r) (hb : b = .ind m) (op k imm) (h : NoFail (encItems op k (.reg r.toReg) m.toRm imm))

theorem two_operands {a b} (h : Two a b) (ha : RmOk a) (hb : RmiOk b) (rel) :
    ∃ A B, rm rel (a.mapAddr dropRsp) = some A ∧ rmi rel (b.mapAddr dropRsp) = some B ∧ notBothMem A B = true := by
  cases h with
  | imm i e op k mm imm h =>
    subst e
    obtain ⟨A, hA⟩ := ok_rm rel h ha
    exact ⟨A, _, hA, rfl, notBothMem_imm _ _⟩
  | immo i r e1 e2 k op h =>
    subst e1; subst e2
    obtain ⟨g, hg⟩ := ok_o h ha.reg
    exact ⟨_, _, by simp only [RmOperand.mapAddr, rm, hg]; rfl, rfl, rfl⟩
  | immrax i r e1 e2 h =>
    subst e1; subst e2
    obtain ⟨g, hg⟩ := gpr_of_not_rip ha.reg h
    exact ⟨_, _, by simp only [RmOperand.mapAddr, rm, hg]; rfl, rfl, rfl⟩
  | reg r e op k imm h =>
    subst e
    obtain ⟨A, hA⟩ := ok_rm rel h ha
    obtain ⟨g, hg⟩ := ok_reg h hb.reg
    exact ⟨A, _, hA, by simp only [RmiOperand.mapAddr, rmi, hg]; rfl, notBothMem_gpr _ _⟩
  | ind r m e1 e2 op k imm h =>
    subst e1; subst e2
    obtain ⟨g, hg⟩ := ok_reg h ha.reg
    obtain ⟨A, hA⟩ := ok_addr rel h hb.ind
    exact ⟨_, _, by simp only [RmOperand.mapAddr, rm, hg]; rfl, by simp only [RmiOperand.mapAddr, rmi, hA]; rfl, rfl⟩

theorem is_rax_not_rip {r : Reg} (h : r.is_rax = true) : r.is_rip = false := by
  have : r = Reg.rax := by simpa [Reg.is_rax] using h
  subst this; rfl

macro "two" hf:ident : tactic => `(tactic| first
  | exact absurd $hf noFail_fail
  | exact absurd (noFail_tail $hf) noFail_fail
  | exact .imm _ rfl _ _ _ _ $hf
  | exact .imm _ rfl _ _ _ _ (noFail_tail $hf)
  | exact .immo _ _ rfl rfl _ _ (noFail_left $hf)
  | exact .immo _ _ rfl rfl _ _ (noFail_left (noFail_tail $hf))
  | exact .reg _ rfl _ _ _ $hf
  | exact .reg _ rfl _ _ _ (noFail_tail $hf)
  | exact .ind _ _ rfl rfl _ _ _ $hf
  | exact .ind _ _ rfl rfl _ _ _ (noFail_tail $hf))

theorem two_binary {sz o d a b its} (hi : It.binary_op sz o d a b = .ok its) (hf : NoFail its) : Two a b := by
  cases sz <;> simp only [It.binary_op] at hi <;> cases a <;> cases b <;>
    simp only [It.binary_opq, It.binary_opl, It.binary_opw, It.binary_opb, Except.ok.injEq, reduceCtorEq] at hi <;>
    subst hi
  all_goals first
    | two hf
    | (revert hf; (repeat' split) <;> intro hf <;> two hf)
    | (revert hf
       simp only [It.digit_imm_byte]
       (repeat' split) <;> intro hf
       all_goals first
         | two hf
         | (rename_i h; simp [RmOperand.toRm, Rm.reg, Rm.is_rax] at h; exact .immrax _ _ rfl rfl (is_rax_not_rip h))
         | (rename_i h; simp [RmOperand.toRm, IndAddr.toRm, Rm.ind, Rm.is_rax] at h))

theorem two_movl {a b its} (hi : It.movl a b = .ok its) (hf : NoFail its) : Two a b := by
  cases a <;> cases b <;> simp only [It.movl, Except.ok.injEq, reduceCtorEq] at hi <;> subst hi
  all_goals first | two hf | (revert hf; (repeat' split) <;> intro hf <;> two hf)
theorem two_movw {a b its} (hi : It.movw a b = .ok its) (hf : NoFail its) : Two a b := by
  cases a <;> cases b <;> simp only [It.movw, Except.ok.injEq, reduceCtorEq] at hi <;> subst hi
  all_goals first | two hf | (revert hf; (repeat' split) <;> intro hf <;> two hf)
theorem two_movb {a b its} (hi : It.movb a b = .ok its) (hf : NoFail its) : Two a b := by
  cases a <;> cases b <;> simp only [It.movb, Except.ok.injEq, reduceCtorEq] at hi <;> subst hi
  all_goals first | two hf | (revert hf; (repeat' split) <;> intro hf <;> two hf)

theorem shift_valid {sz d a b its op} (hi : It.shift_op sz d a b = .ok its) (hf : NoFail its) (ha : RmOk a)
    (hb : ∀ r ∈ b.regs, regVal r ≤ 16) (rel) : ∃ I, Spec.shift rel op sz (a.mapAddr dropRsp) b = some I := by
  have key : ∀ {op k mm imm}, NoFail (encItems op k mm a.toRm imm) → ∃ A, rm rel (a.mapAddr dropRsp) = some A := fun h => ok_rm rel h ha
  cases b with
  | imm i =>
    have : ∃ A, rm rel (a.mapAddr dropRsp) = some A := by
      cases sz <;> simp only [It.shift_op, Except.ok.injEq, reduceCtorEq] at hi <;> subst hi <;> revert hf <;>
        (repeat' split) <;> intro hf <;> first | exact key hf | exact absurd hf noFail_fail
    obtain ⟨A, hA⟩ := this
    exact ⟨_, by simp only [Spec.shift, hA, ri]; rfl⟩
  | reg r =>
    have : r.toReg.is_cl = true ∧ ∃ A, rm rel (a.mapAddr dropRsp) = some A := by
      cases sz <;> simp only [It.shift_op, Except.ok.injEq, reduceCtorEq] at hi <;> subst hi <;> revert hf <;>
        split <;> intro hf <;> first | exact ⟨by assumption, key hf⟩ | exact absurd hf noFail_fail
    obtain ⟨hcl, A, hA⟩ := this
    have hr := hb r (by simp [RiOperand.regs])
    have e1 : r.toReg = Reg.rcx := by simpa [Reg.is_cl] using hcl
    obtain ⟨g, hg⟩ := gpr_of_not_rip hr (by rw [e1]; rfl)
    have : g = 1#4 := by
      have e2 : (regVal r).setWidth 8 = 1#8 := by
        cases r <;> simp only [Register.toReg, Reg.from, Reg.rcx, Reg.mk.injEq] at e1 <;> exact e1
      simp only [gpr] at hg
      split at hg
      · simp only [Option.some.injEq] at hg
        rw [← hg]
        have := congrArg BitVec.toNat e2
        apply BitVec.eq_of_toNat_eq
        simp only [BitVec.toNat_setWidth, BitVec.toNat_ofNat] at this ⊢
        omega
      · simp at hg
    exact ⟨_, by simp only [Spec.shift, hA, ri, hg, this]; rfl⟩

/-- A statement whose items do not panic denotes an instruction when an index `rsp` is left out. -/
theorem items_dropped {i its} (hr : InFile i) (hi : items i = .ok its) (hf : NoFail its) :
    Valid (i.mapAddr dropRsp) ∨ (∃ l, i = .Label l) ∨ (∃ v, i = .I64 v) ∨ ∃ v, i = .F64 v := by
  obtain ⟨h1, h2, h3⟩ := hr
  let rel : Nat → BitVec 64 := fun _ => 0
  have r1 : ∀ {o : RmOperand Val Nat}, (∀ r ∈ o.regs, r ∈ Inst.regs _) → (∀ a ∈ o.addrs, a ∈ Inst.addrs _) → RmOk o :=
    fun ha hb => ⟨fun r hr => h1 r (ha r hr), fun a hm => h3 a (hb a hm)⟩
  have r2 : ∀ {o : RmiOperand Val Nat}, (∀ r ∈ o.regs, r ∈ Inst.regs _) → (∀ a ∈ o.addrs, a ∈ Inst.addrs _) → RmiOk o :=
    fun ha hb => ⟨fun r hr => h1 r (ha r hr), fun a hm => h3 a (hb a hm)⟩
  have r3 : ∀ {o : XmOperand Val Nat}, (∀ r ∈ o.regs, r ∈ Inst.regs _) → (∀ x ∈ o.xmms, x ∈ Inst.xmms _) →
      (∀ a ∈ o.addrs, a ∈ Inst.addrs _) → XmOk o :=
    fun ha hx hb => ⟨fun r hr => h1 r (ha r hr), fun x hm => h2 x (hx x hm), fun a hm => h3 a (hb a hm)⟩
  have r4 : ∀ {a : IndAddr Val Nat}, (∀ r ∈ a.regs, r ∈ Inst.regs _) → (a ∈ Inst.addrs _) → AddrOk a :=
    fun ha hb => ⟨fun r hr => h1 r (ha r hr), fun sc r => h3 _ hb sc r⟩
  cases i
  case Label | I64 | F64 => simp
  all_goals refine .inl ⟨rel, ?_⟩
  case Movsxl | Movzxw | Movsxw | Movzxb | Movsxb =>
    simp only [items, Except.ok.injEq] at hi; subst hi
    obtain ⟨A, hA⟩ := ok_rm rel hf (r1 (by simp +contextual [Inst.regs]) (by simp [Inst.addrs]))
    obtain ⟨g, hg⟩ := ok_reg hf (h1 _ (by simp [Inst.regs]))
    exact ⟨_, by simp only [Inst.mapAddr, RmOperand.mapAddr.eq_1, RmOperand.mapAddr.eq_2, RmiOperand.mapAddr.eq_1, RmiOperand.mapAddr.eq_2, RmiOperand.mapAddr.eq_3, XmOperand.mapAddr.eq_1, XmOperand.mapAddr.eq_2, MovOperand.mapAddr.eq_1, MovOperand.mapAddr.eq_2, MovOperand.mapAddr.eq_3, MovOperand.mapAddr.eq_4, Dest.mapAddr.eq_1, Dest.mapAddr.eq_2, Dest.mapAddr.eq_3, Dest.mapAddr.eq_4, meaning, ext, hA, hg]; rfl⟩
  case Add | Sub | Adc | Sbb | And | Or | Xor | Cmp =>
    obtain ⟨A, B, hA, hB, hn⟩ := two_operands (two_binary hi hf) (r1 (by simp +contextual [Inst.regs]) (by simp +contextual [Inst.addrs]))
      (r2 (by simp +contextual [Inst.regs]) (by simp +contextual [Inst.addrs])) rel
    exact ⟨_, by simp only [Inst.mapAddr, RmOperand.mapAddr.eq_1, RmOperand.mapAddr.eq_2, RmiOperand.mapAddr.eq_1, RmiOperand.mapAddr.eq_2, RmiOperand.mapAddr.eq_3, XmOperand.mapAddr.eq_1, XmOperand.mapAddr.eq_2, MovOperand.mapAddr.eq_1, MovOperand.mapAddr.eq_2, MovOperand.mapAddr.eq_3, MovOperand.mapAddr.eq_4, Dest.mapAddr.eq_1, Dest.mapAddr.eq_2, Dest.mapAddr.eq_3, Dest.mapAddr.eq_4, meaning, Spec.alu, hA, hB, Option.bind_eq_bind, Option.bind_some, hn, if_true]; rfl⟩
  case Movl =>
    obtain ⟨A, B, hA, hB, hn⟩ := two_operands (two_movl hi hf) (r1 (by simp +contextual [Inst.regs]) (by simp +contextual [Inst.addrs]))
      (r2 (by simp +contextual [Inst.regs]) (by simp +contextual [Inst.addrs])) rel
    exact ⟨_, by simp only [Inst.mapAddr, RmOperand.mapAddr.eq_1, RmOperand.mapAddr.eq_2, RmiOperand.mapAddr.eq_1, RmiOperand.mapAddr.eq_2, RmiOperand.mapAddr.eq_3, XmOperand.mapAddr.eq_1, XmOperand.mapAddr.eq_2, MovOperand.mapAddr.eq_1, MovOperand.mapAddr.eq_2, MovOperand.mapAddr.eq_3, MovOperand.mapAddr.eq_4, Dest.mapAddr.eq_1, Dest.mapAddr.eq_2, Dest.mapAddr.eq_3, Dest.mapAddr.eq_4, meaning, Spec.mov, hA, hB, Option.bind_eq_bind, Option.bind_some, hn, if_true]; rfl⟩
  case Movw =>
    obtain ⟨A, B, hA, hB, hn⟩ := two_operands (two_movw hi hf) (r1 (by simp +contextual [Inst.regs]) (by simp +contextual [Inst.addrs]))
      (r2 (by simp +contextual [Inst.regs]) (by simp +contextual [Inst.addrs])) rel
    exact ⟨_, by simp only [Inst.mapAddr, RmOperand.mapAddr.eq_1, RmOperand.mapAddr.eq_2, RmiOperand.mapAddr.eq_1, RmiOperand.mapAddr.eq_2, RmiOperand.mapAddr.eq_3, XmOperand.mapAddr.eq_1, XmOperand.mapAddr.eq_2, MovOperand.mapAddr.eq_1, MovOperand.mapAddr.eq_2, MovOperand.mapAddr.eq_3, MovOperand.mapAddr.eq_4, Dest.mapAddr.eq_1, Dest.mapAddr.eq_2, Dest.mapAddr.eq_3, Dest.mapAddr.eq_4, meaning, Spec.mov, hA, hB, Option.bind_eq_bind, Option.bind_some, hn, if_true]; rfl⟩
  case Movb =>
    obtain ⟨A, B, hA, hB, hn⟩ := two_operands (two_movb hi hf) (r1 (by simp +contextual [Inst.regs]) (by simp +contextual [Inst.addrs]))
      (r2 (by simp +contextual [Inst.regs]) (by simp +contextual [Inst.addrs])) rel
    exact ⟨_, by simp only [Inst.mapAddr, RmOperand.mapAddr.eq_1, RmOperand.mapAddr.eq_2, RmiOperand.mapAddr.eq_1, RmiOperand.mapAddr.eq_2, RmiOperand.mapAddr.eq_3, XmOperand.mapAddr.eq_1, XmOperand.mapAddr.eq_2, MovOperand.mapAddr.eq_1, MovOperand.mapAddr.eq_2, MovOperand.mapAddr.eq_3, MovOperand.mapAddr.eq_4, Dest.mapAddr.eq_1, Dest.mapAddr.eq_2, Dest.mapAddr.eq_3, Dest.mapAddr.eq_4, meaning, Spec.mov, hA, hB, Option.bind_eq_bind, Option.bind_some, hn, if_true]; rfl⟩
  case Shl | Shr | Sal | Sar | Rol | Ror =>
    exact shift_valid hi hf (r1 (by simp +contextual [Inst.regs]) (by simp +contextual [Inst.addrs]))
      (fun r hr => h1 r (by simp [Inst.regs, hr])) rel
  case Negq | Idiv | Idivl | Div | Divl =>
    simp only [items, Except.ok.injEq] at hi; subst hi
    obtain ⟨A, hA⟩ := ok_rm rel hf (r1 (by simp +contextual [Inst.regs]) (by simp +contextual [Inst.addrs]))
    exact ⟨_, by simp only [Inst.mapAddr, RmOperand.mapAddr.eq_1, RmOperand.mapAddr.eq_2, RmiOperand.mapAddr.eq_1, RmiOperand.mapAddr.eq_2, RmiOperand.mapAddr.eq_3, XmOperand.mapAddr.eq_1, XmOperand.mapAddr.eq_2, MovOperand.mapAddr.eq_1, MovOperand.mapAddr.eq_2, MovOperand.mapAddr.eq_3, MovOperand.mapAddr.eq_4, Dest.mapAddr.eq_1, Dest.mapAddr.eq_2, Dest.mapAddr.eq_3, Dest.mapAddr.eq_4, meaning, un, hA]; rfl⟩
  case Setcc =>
    simp only [items, Except.ok.injEq] at hi; subst hi
    obtain ⟨A, hA⟩ := ok_rm rel hf (r1 (by simp +contextual [Inst.regs]) (by simp +contextual [Inst.addrs]))
    exact ⟨_, by simp only [Inst.mapAddr, RmOperand.mapAddr.eq_1, RmOperand.mapAddr.eq_2, RmiOperand.mapAddr.eq_1, RmiOperand.mapAddr.eq_2, RmiOperand.mapAddr.eq_3, XmOperand.mapAddr.eq_1, XmOperand.mapAddr.eq_2, MovOperand.mapAddr.eq_1, MovOperand.mapAddr.eq_2, MovOperand.mapAddr.eq_3, MovOperand.mapAddr.eq_4, Dest.mapAddr.eq_1, Dest.mapAddr.eq_2, Dest.mapAddr.eq_3, Dest.mapAddr.eq_4, meaning, hA]; rfl⟩
  case Cqo | Cdq | Leave | Ret | Syscall | Int3 | Jcc => exact ⟨_, rfl⟩
  case Addsd | Subsd | Mulsd | Divsd | Minsd | Maxsd | Sqrtsd | UComIsd | Andpd | Xorpd | Sqrtpd =>
    simp only [items, It.sd, Except.ok.injEq] at hi; subst hi
    obtain ⟨A, hA⟩ := ok_xm rel (noFail_tail hf) (r3 (by simp +contextual [Inst.regs]) (by simp +contextual [Inst.xmms]) (by simp +contextual [Inst.addrs]))
    obtain ⟨g, hg⟩ := xmm_of_range (h2 _ (by simp [Inst.xmms]; exact .inl rfl))
    exact ⟨_, by simp only [Inst.mapAddr, RmOperand.mapAddr.eq_1, RmOperand.mapAddr.eq_2, RmiOperand.mapAddr.eq_1, RmiOperand.mapAddr.eq_2, RmiOperand.mapAddr.eq_3, XmOperand.mapAddr.eq_1, XmOperand.mapAddr.eq_2, MovOperand.mapAddr.eq_1, MovOperand.mapAddr.eq_2, MovOperand.mapAddr.eq_3, MovOperand.mapAddr.eq_4, Dest.mapAddr.eq_1, Dest.mapAddr.eq_2, Dest.mapAddr.eq_3, Dest.mapAddr.eq_4, meaning, sse, hA, hg]; rfl⟩
  case Xorps =>
    simp only [items, Except.ok.injEq] at hi; subst hi
    obtain ⟨A, hA⟩ := ok_xm rel hf (r3 (by simp +contextual [Inst.regs]) (by simp +contextual [Inst.xmms]) (by simp +contextual [Inst.addrs]))
    obtain ⟨g, hg⟩ := xmm_of_range (h2 _ (by simp [Inst.xmms]; exact .inl rfl))
    exact ⟨_, by simp only [Inst.mapAddr, RmOperand.mapAddr.eq_1, RmOperand.mapAddr.eq_2, RmiOperand.mapAddr.eq_1, RmiOperand.mapAddr.eq_2, RmiOperand.mapAddr.eq_3, XmOperand.mapAddr.eq_1, XmOperand.mapAddr.eq_2, MovOperand.mapAddr.eq_1, MovOperand.mapAddr.eq_2, MovOperand.mapAddr.eq_3, MovOperand.mapAddr.eq_4, Dest.mapAddr.eq_1, Dest.mapAddr.eq_2, Dest.mapAddr.eq_3, Dest.mapAddr.eq_4, meaning, sse, hA, hg]; rfl⟩
  case Roundpd =>
    simp only [items, Except.ok.injEq] at hi; subst hi
    obtain ⟨A, hA⟩ := ok_xm rel (noFail_tail (noFail_left hf)) (r3 (by simp +contextual [Inst.regs]) (by simp +contextual [Inst.xmms]) (by simp +contextual [Inst.addrs]))
    obtain ⟨g, hg⟩ := xmm_of_range (h2 _ (by simp [Inst.xmms]; exact .inl rfl))
    exact ⟨_, by simp only [Inst.mapAddr, RmOperand.mapAddr.eq_1, RmOperand.mapAddr.eq_2, RmiOperand.mapAddr.eq_1, RmiOperand.mapAddr.eq_2, RmiOperand.mapAddr.eq_3, XmOperand.mapAddr.eq_1, XmOperand.mapAddr.eq_2, MovOperand.mapAddr.eq_1, MovOperand.mapAddr.eq_2, MovOperand.mapAddr.eq_3, MovOperand.mapAddr.eq_4, Dest.mapAddr.eq_1, Dest.mapAddr.eq_2, Dest.mapAddr.eq_3, Dest.mapAddr.eq_4, meaning, sse, hA, hg]; rfl⟩
  case Cvtsi2sdq =>
    simp only [items, Except.ok.injEq] at hi; subst hi
    obtain ⟨A, hA⟩ := ok_rm rel (noFail_tail hf) (r1 (by simp +contextual [Inst.regs]) (by simp +contextual [Inst.addrs]))
    obtain ⟨g, hg⟩ := xmm_of_range (h2 _ (by simp [Inst.xmms]; rfl))
    exact ⟨_, by simp only [Inst.mapAddr, RmOperand.mapAddr.eq_1, RmOperand.mapAddr.eq_2, RmiOperand.mapAddr.eq_1, RmiOperand.mapAddr.eq_2, RmiOperand.mapAddr.eq_3, XmOperand.mapAddr.eq_1, XmOperand.mapAddr.eq_2, MovOperand.mapAddr.eq_1, MovOperand.mapAddr.eq_2, MovOperand.mapAddr.eq_3, MovOperand.mapAddr.eq_4, Dest.mapAddr.eq_1, Dest.mapAddr.eq_2, Dest.mapAddr.eq_3, Dest.mapAddr.eq_4, meaning, hA, hg]; rfl⟩
  case Cvttsd2siq =>
    simp only [items, Except.ok.injEq] at hi; subst hi
    obtain ⟨A, hA⟩ := ok_xm rel (noFail_tail hf) (r3 (by simp +contextual [Inst.regs]) (by simp +contextual [Inst.xmms]) (by simp +contextual [Inst.addrs]))
    obtain ⟨g, hg⟩ := ok_reg (noFail_tail hf) (h1 _ (by simp [Inst.regs]))
    exact ⟨_, by simp only [Inst.mapAddr, RmOperand.mapAddr.eq_1, RmOperand.mapAddr.eq_2, RmiOperand.mapAddr.eq_1, RmiOperand.mapAddr.eq_2, RmiOperand.mapAddr.eq_3, XmOperand.mapAddr.eq_1, XmOperand.mapAddr.eq_2, MovOperand.mapAddr.eq_1, MovOperand.mapAddr.eq_2, MovOperand.mapAddr.eq_3, MovOperand.mapAddr.eq_4, Dest.mapAddr.eq_1, Dest.mapAddr.eq_2, Dest.mapAddr.eq_3, Dest.mapAddr.eq_4, meaning, hA, hg]; rfl⟩
  case Lzcnt sz _ _ | Tzcnt sz _ _ | Popcnt sz _ _ =>
    cases sz <;> simp only [items, It.count_op, Except.ok.injEq, reduceCtorEq] at hi <;> subst hi
    all_goals
      obtain ⟨A, hA⟩ := ok_rm rel (noFail_tail hf) (r1 (by simp +contextual [Inst.regs]) (by simp +contextual [Inst.addrs]))
      obtain ⟨g, hg⟩ := ok_reg (noFail_tail hf) (h1 _ (by simp [Inst.regs]))
      exact ⟨_, by simp only [Inst.mapAddr, RmOperand.mapAddr.eq_1, RmOperand.mapAddr.eq_2, RmiOperand.mapAddr.eq_1, RmiOperand.mapAddr.eq_2, RmiOperand.mapAddr.eq_3, XmOperand.mapAddr.eq_1, XmOperand.mapAddr.eq_2, MovOperand.mapAddr.eq_1, MovOperand.mapAddr.eq_2, MovOperand.mapAddr.eq_3, MovOperand.mapAddr.eq_4, Dest.mapAddr.eq_1, Dest.mapAddr.eq_2, Dest.mapAddr.eq_3, Dest.mapAddr.eq_4, meaning, hA, hg]; rfl⟩
  case Cmovcc sz _ _ _ =>
    cases sz <;> simp only [items, Except.ok.injEq, reduceCtorEq] at hi <;> subst hi
    all_goals
      first
      | (obtain ⟨A, hA⟩ := ok_rm rel hf (r1 (by simp +contextual [Inst.regs]) (by simp +contextual [Inst.addrs]))
         obtain ⟨g, hg⟩ := ok_reg hf (h1 _ (by simp [Inst.regs]))
         exact ⟨_, by simp only [Inst.mapAddr, RmOperand.mapAddr.eq_1, RmOperand.mapAddr.eq_2, RmiOperand.mapAddr.eq_1, RmiOperand.mapAddr.eq_2, RmiOperand.mapAddr.eq_3, XmOperand.mapAddr.eq_1, XmOperand.mapAddr.eq_2, MovOperand.mapAddr.eq_1, MovOperand.mapAddr.eq_2, MovOperand.mapAddr.eq_3, MovOperand.mapAddr.eq_4, Dest.mapAddr.eq_1, Dest.mapAddr.eq_2, Dest.mapAddr.eq_3, Dest.mapAddr.eq_4, meaning, hA, hg]; rfl⟩)
      | (obtain ⟨A, hA⟩ := ok_rm rel (noFail_tail hf) (r1 (by simp +contextual [Inst.regs]) (by simp +contextual [Inst.addrs]))
         obtain ⟨g, hg⟩ := ok_reg (noFail_tail hf) (h1 _ (by simp [Inst.regs]))
         exact ⟨_, by simp only [Inst.mapAddr, RmOperand.mapAddr.eq_1, RmOperand.mapAddr.eq_2, RmiOperand.mapAddr.eq_1, RmiOperand.mapAddr.eq_2, RmiOperand.mapAddr.eq_3, XmOperand.mapAddr.eq_1, XmOperand.mapAddr.eq_2, MovOperand.mapAddr.eq_1, MovOperand.mapAddr.eq_2, MovOperand.mapAddr.eq_3, MovOperand.mapAddr.eq_4, Dest.mapAddr.eq_1, Dest.mapAddr.eq_2, Dest.mapAddr.eq_3, Dest.mapAddr.eq_4, meaning, hA, hg]; rfl⟩)
  case Pushq a | Popq a =>
    simp only [items, Except.ok.injEq] at hi; subst hi
    cases a with
    | reg r =>
      simp only [It.push_pop] at hf
      obtain ⟨g, hg⟩ := ok_o hf (h1 _ (by simp [Inst.regs, RmOperand.regs, RmiOperand.regs, RiOperand.regs, MovOperand.regs, Dest.regs]; done))
      exact ⟨_, by simp only [Inst.mapAddr, RmOperand.mapAddr.eq_1, RmOperand.mapAddr.eq_2, RmiOperand.mapAddr.eq_1, RmiOperand.mapAddr.eq_2, RmiOperand.mapAddr.eq_3, XmOperand.mapAddr.eq_1, XmOperand.mapAddr.eq_2, MovOperand.mapAddr.eq_1, MovOperand.mapAddr.eq_2, MovOperand.mapAddr.eq_3, MovOperand.mapAddr.eq_4, Dest.mapAddr.eq_1, Dest.mapAddr.eq_2, Dest.mapAddr.eq_3, Dest.mapAddr.eq_4, meaning, rm, hg]; rfl⟩
    | ind a =>
      simp only [It.push_pop] at hf
      obtain ⟨A, hA⟩ := ok_addr rel hf (r4 (by simp +contextual [Inst.regs, RmOperand.regs, RmiOperand.regs, XmOperand.regs, MovOperand.regs, Dest.regs]) (by simp [Inst.addrs, RmOperand.addrs, RmiOperand.addrs, XmOperand.addrs, MovOperand.addrs, Dest.addrs]))
      exact ⟨_, by simp only [Inst.mapAddr, RmOperand.mapAddr.eq_1, RmOperand.mapAddr.eq_2, RmiOperand.mapAddr.eq_1, RmiOperand.mapAddr.eq_2, RmiOperand.mapAddr.eq_3, XmOperand.mapAddr.eq_1, XmOperand.mapAddr.eq_2, MovOperand.mapAddr.eq_1, MovOperand.mapAddr.eq_2, MovOperand.mapAddr.eq_3, MovOperand.mapAddr.eq_4, Dest.mapAddr.eq_1, Dest.mapAddr.eq_2, Dest.mapAddr.eq_3, Dest.mapAddr.eq_4, meaning, rm, hA]; rfl⟩
  case Jmp d | Call d =>
    cases d with
    | reg n =>
      simp only [items, Except.ok.injEq] at hi; subst hi
      obtain ⟨g, hg⟩ := ok_rmreg (r := .reg n) hf (h1 _ (by simp [Inst.regs, RmOperand.regs, RmiOperand.regs, RiOperand.regs, MovOperand.regs, Dest.regs]; done))
      exact ⟨_, by simp only [Inst.mapAddr, RmOperand.mapAddr.eq_1, RmOperand.mapAddr.eq_2, RmiOperand.mapAddr.eq_1, RmiOperand.mapAddr.eq_2, RmiOperand.mapAddr.eq_3, XmOperand.mapAddr.eq_1, XmOperand.mapAddr.eq_2, MovOperand.mapAddr.eq_1, MovOperand.mapAddr.eq_2, MovOperand.mapAddr.eq_3, MovOperand.mapAddr.eq_4, Dest.mapAddr.eq_1, Dest.mapAddr.eq_2, Dest.mapAddr.eq_3, Dest.mapAddr.eq_4, meaning, hg]; rfl⟩
    | ind a =>
      simp only [items, Except.ok.injEq] at hi; subst hi
      obtain ⟨A, hA⟩ := ok_addr rel hf (r4 (by simp +contextual [Inst.regs, RmOperand.regs, RmiOperand.regs, XmOperand.regs, MovOperand.regs, Dest.regs]) (by simp [Inst.addrs, RmOperand.addrs, RmiOperand.addrs, XmOperand.addrs, MovOperand.addrs, Dest.addrs]))
      exact ⟨_, by simp only [Inst.mapAddr, RmOperand.mapAddr.eq_1, RmOperand.mapAddr.eq_2, RmiOperand.mapAddr.eq_1, RmiOperand.mapAddr.eq_2, RmiOperand.mapAddr.eq_3, XmOperand.mapAddr.eq_1, XmOperand.mapAddr.eq_2, MovOperand.mapAddr.eq_1, MovOperand.mapAddr.eq_2, MovOperand.mapAddr.eq_3, MovOperand.mapAddr.eq_4, Dest.mapAddr.eq_1, Dest.mapAddr.eq_2, Dest.mapAddr.eq_3, Dest.mapAddr.eq_4, meaning, hA]; rfl⟩
    | rel l => exact ⟨_, rfl⟩
    | disp e => exact ⟨_, rfl⟩
  case Movsd a b =>
    cases a with
    | xmm x =>
      simp only [items, It.sd, Except.ok.injEq] at hi; subst hi
      obtain ⟨A, hA⟩ := ok_xm rel (noFail_tail hf) (r3 (by simp +contextual [Inst.regs]) (by simp +contextual [Inst.xmms]) (by simp +contextual [Inst.addrs]))
      obtain ⟨g, hg⟩ := xmm_of_range (h2 x (by simp [Inst.xmms, XmOperand.xmms]))
      exact ⟨_, by simp only [Inst.mapAddr, RmOperand.mapAddr.eq_1, RmOperand.mapAddr.eq_2, RmiOperand.mapAddr.eq_1, RmiOperand.mapAddr.eq_2, RmiOperand.mapAddr.eq_3, XmOperand.mapAddr.eq_1, XmOperand.mapAddr.eq_2, MovOperand.mapAddr.eq_1, MovOperand.mapAddr.eq_2, MovOperand.mapAddr.eq_3, MovOperand.mapAddr.eq_4, Dest.mapAddr.eq_1, Dest.mapAddr.eq_2, Dest.mapAddr.eq_3, Dest.mapAddr.eq_4, meaning, xm, hg, Option.bind_eq_bind, Option.bind_some, Option.pure_def] at hA ⊢; rw [hA]; rfl⟩
    | ind a =>
      cases b <;> simp only [items, It.sd, Except.ok.injEq, reduceCtorEq] at hi
      rename_i x
      subst hi
      obtain ⟨A, hA⟩ := ok_addr rel (noFail_tail hf) (r4 (by simp +contextual [Inst.regs, RmOperand.regs, RmiOperand.regs, XmOperand.regs, MovOperand.regs, Dest.regs]) (by simp [Inst.addrs, RmOperand.addrs, RmiOperand.addrs, XmOperand.addrs, MovOperand.addrs, Dest.addrs]))
      obtain ⟨g, hg⟩ := xmm_of_range (h2 x (by simp [Inst.xmms, XmOperand.xmms]))
      exact ⟨_, by simp only [Inst.mapAddr, RmOperand.mapAddr.eq_1, RmOperand.mapAddr.eq_2, RmiOperand.mapAddr.eq_1, RmiOperand.mapAddr.eq_2, RmiOperand.mapAddr.eq_3, XmOperand.mapAddr.eq_1, XmOperand.mapAddr.eq_2, MovOperand.mapAddr.eq_1, MovOperand.mapAddr.eq_2, MovOperand.mapAddr.eq_3, MovOperand.mapAddr.eq_4, Dest.mapAddr.eq_1, Dest.mapAddr.eq_2, Dest.mapAddr.eq_3, Dest.mapAddr.eq_4, meaning, xm, hg, hA]; rfl⟩
  case Lea a b =>
    cases a <;> cases b <;> simp only [items, Except.ok.injEq, reduceCtorEq] at hi
    subst hi
    obtain ⟨A, hA⟩ := ok_addr rel hf (r4 (by simp +contextual [Inst.regs, RmOperand.regs, RmiOperand.regs, XmOperand.regs, MovOperand.regs, Dest.regs]) (by simp [Inst.addrs, RmOperand.addrs, RmiOperand.addrs, XmOperand.addrs, MovOperand.addrs, Dest.addrs]))
    obtain ⟨g, hg⟩ := ok_reg hf (h1 _ (by simp [Inst.regs, RmOperand.regs, RmiOperand.regs, RiOperand.regs, MovOperand.regs, Dest.regs]; done))
    exact ⟨_, by simp only [Inst.mapAddr, RmOperand.mapAddr.eq_1, RmOperand.mapAddr.eq_2, RmiOperand.mapAddr.eq_1, RmiOperand.mapAddr.eq_2, RmiOperand.mapAddr.eq_3, XmOperand.mapAddr.eq_1, XmOperand.mapAddr.eq_2, MovOperand.mapAddr.eq_1, MovOperand.mapAddr.eq_2, MovOperand.mapAddr.eq_3, MovOperand.mapAddr.eq_4, Dest.mapAddr.eq_1, Dest.mapAddr.eq_2, Dest.mapAddr.eq_3, Dest.mapAddr.eq_4, meaning, hA, hg]; rfl⟩
  case Imul a b =>
    cases a <;> cases b <;> simp only [items, Except.ok.injEq, reduceCtorEq] at hi <;> subst hi
    · obtain ⟨g, hg⟩ := ok_reg hf (h1 _ (by simp [Inst.regs, RmOperand.regs, RmiOperand.regs, RiOperand.regs, MovOperand.regs, Dest.regs]; done))
      obtain ⟨g', hg'⟩ := ok_rmreg hf (h1 _ (by simp [Inst.regs, RmOperand.regs, RmiOperand.regs, RiOperand.regs, MovOperand.regs, Dest.regs]; done))
      exact ⟨_, by simp only [Inst.mapAddr, RmOperand.mapAddr.eq_1, RmOperand.mapAddr.eq_2, RmiOperand.mapAddr.eq_1, RmiOperand.mapAddr.eq_2, RmiOperand.mapAddr.eq_3, XmOperand.mapAddr.eq_1, XmOperand.mapAddr.eq_2, MovOperand.mapAddr.eq_1, MovOperand.mapAddr.eq_2, MovOperand.mapAddr.eq_3, MovOperand.mapAddr.eq_4, Dest.mapAddr.eq_1, Dest.mapAddr.eq_2, Dest.mapAddr.eq_3, Dest.mapAddr.eq_4, meaning, rmi, hg, hg']; rfl⟩
    · obtain ⟨A, hA⟩ := ok_addr rel hf (r4 (by simp +contextual [Inst.regs, RmOperand.regs, RmiOperand.regs, XmOperand.regs, MovOperand.regs, Dest.regs]) (by simp [Inst.addrs, RmOperand.addrs, RmiOperand.addrs, XmOperand.addrs, MovOperand.addrs, Dest.addrs]))
      obtain ⟨g, hg⟩ := ok_reg hf (h1 _ (by simp [Inst.regs, RmOperand.regs, RmiOperand.regs, RiOperand.regs, MovOperand.regs, Dest.regs]; done))
      exact ⟨_, by simp only [Inst.mapAddr, RmOperand.mapAddr.eq_1, RmOperand.mapAddr.eq_2, RmiOperand.mapAddr.eq_1, RmiOperand.mapAddr.eq_2, RmiOperand.mapAddr.eq_3, XmOperand.mapAddr.eq_1, XmOperand.mapAddr.eq_2, MovOperand.mapAddr.eq_1, MovOperand.mapAddr.eq_2, MovOperand.mapAddr.eq_3, MovOperand.mapAddr.eq_4, Dest.mapAddr.eq_1, Dest.mapAddr.eq_2, Dest.mapAddr.eq_3, Dest.mapAddr.eq_4, meaning, rmi, hA, hg]; rfl⟩
  case Testq a b | Testb a b =>
    cases b with
    | reg r =>
      simp only [items, Except.ok.injEq] at hi; subst hi
      obtain ⟨A, hA⟩ := ok_rm rel hf (r1 (by simp +contextual [Inst.regs]) (by simp +contextual [Inst.addrs]))
      obtain ⟨g, hg⟩ := ok_reg hf (h1 _ (by simp [Inst.regs, RmOperand.regs, RmiOperand.regs, RiOperand.regs, MovOperand.regs, Dest.regs]; done))
      exact ⟨_, by simp only [Inst.mapAddr, RmOperand.mapAddr.eq_1, RmOperand.mapAddr.eq_2, RmiOperand.mapAddr.eq_1, RmiOperand.mapAddr.eq_2, RmiOperand.mapAddr.eq_3, XmOperand.mapAddr.eq_1, XmOperand.mapAddr.eq_2, MovOperand.mapAddr.eq_1, MovOperand.mapAddr.eq_2, MovOperand.mapAddr.eq_3, MovOperand.mapAddr.eq_4, Dest.mapAddr.eq_1, Dest.mapAddr.eq_2, Dest.mapAddr.eq_3, Dest.mapAddr.eq_4, meaning, ri, hA, hg]; rfl⟩
    | imm i =>
      have : ∃ A, rm rel (a.mapAddr dropRsp) = some A := by
        cases a <;> simp only [items, Except.ok.injEq] at hi <;> subst hi <;> revert hf <;> (repeat' split) <;> intro hf
        all_goals first
          | exact absurd hf noFail_fail
          | (obtain ⟨A, hA⟩ := ok_addr rel hf (r4 (by simp +contextual [Inst.regs, RmOperand.regs, RmiOperand.regs, XmOperand.regs, MovOperand.regs, Dest.regs]) (by simp [Inst.addrs, RmOperand.addrs, RmiOperand.addrs, XmOperand.addrs, MovOperand.addrs, Dest.addrs])); exact ⟨_, by simp only [RmOperand.mapAddr, rm, hA]; rfl⟩)
          | (obtain ⟨g, hg⟩ := ok_rmreg hf (h1 _ (by simp [Inst.regs, RmOperand.regs, RmiOperand.regs, RiOperand.regs, MovOperand.regs, Dest.regs]; done)); exact ⟨_, by simp only [RmOperand.mapAddr, rm, hg]; rfl⟩)
          | (rename_i hrax; obtain ⟨g, hg⟩ := gpr_of_not_rip (h1 _ (by simp [Inst.regs, RmOperand.regs, RmiOperand.regs, RiOperand.regs, MovOperand.regs, Dest.regs]; done)) (is_rax_not_rip hrax); exact ⟨_, by simp only [RmOperand.mapAddr, rm, hg]; rfl⟩)
      obtain ⟨A, hA⟩ := this
      exact ⟨_, by simp only [Inst.mapAddr, RmOperand.mapAddr.eq_1, RmOperand.mapAddr.eq_2, RmiOperand.mapAddr.eq_1, RmiOperand.mapAddr.eq_2, RmiOperand.mapAddr.eq_3, XmOperand.mapAddr.eq_1, XmOperand.mapAddr.eq_2, MovOperand.mapAddr.eq_1, MovOperand.mapAddr.eq_2, MovOperand.mapAddr.eq_3, MovOperand.mapAddr.eq_4, Dest.mapAddr.eq_1, Dest.mapAddr.eq_2, Dest.mapAddr.eq_3, Dest.mapAddr.eq_4, meaning, ri, hA]; rfl⟩
  case Xchg sz a b =>
    have : ∃ A B, rm rel (a.mapAddr dropRsp) = some A ∧ rm rel (b.mapAddr dropRsp) = some B ∧ notBothMem A B = true := by
      cases sz <;> cases a <;> cases b <;> simp only [items, Except.ok.injEq, reduceCtorEq] at hi <;> subst hi
      · rename_i ra rb
        have e0 : ∀ r : Register Val, r.toReg = Reg.from 0 → r.toReg.is_rip = false := by
          intro r h; rw [h]; rfl
        have : ra.toReg.is_rip = false ∧ rb.toReg.is_rip = false := by
          revert hf
          split
          · split
            · intro _; exact ⟨e0 _ (by assumption), e0 _ (by assumption)⟩
            · intro hf; exact ⟨e0 _ (by assumption), reg_of_o hf⟩
          · split
            · intro hf; exact ⟨reg_of_o hf, e0 _ (by assumption)⟩
            · intro hf
              refine ⟨?_, reg_of_enc hf⟩
              obtain ⟨g, hg⟩ := ok_rmreg hf (h1 _ (by simp [Inst.regs, RmOperand.regs, RmiOperand.regs, RiOperand.regs, MovOperand.regs, Dest.regs]; done))
              cases e : ra.toReg.is_rip
              · rfl
              · have := (rip_iff_val (h1 _ (by simp [Inst.regs, RmOperand.regs, RmiOperand.regs, RiOperand.regs, MovOperand.regs, Dest.regs]; done))).1 e
                simp [gpr, this] at hg
        obtain ⟨g1, hg1⟩ := gpr_of_not_rip (h1 _ (by simp [Inst.regs, RmOperand.regs, RmiOperand.regs, RiOperand.regs, MovOperand.regs, Dest.regs]; done)) this.1
        obtain ⟨g2, hg2⟩ := gpr_of_not_rip (h1 _ (by simp [Inst.regs, RmOperand.regs, RmiOperand.regs, RiOperand.regs, MovOperand.regs, Dest.regs]; done)) this.2
        exact ⟨_, _, by simp only [RmOperand.mapAddr, rm, hg1]; rfl, by simp only [RmOperand.mapAddr, rm, hg2]; rfl, rfl⟩
      · obtain ⟨A, hA⟩ := ok_addr rel hf (r4 (by simp +contextual [Inst.regs, RmOperand.regs, RmiOperand.regs, XmOperand.regs, MovOperand.regs, Dest.regs]) (by simp [Inst.addrs, RmOperand.addrs, RmiOperand.addrs, XmOperand.addrs, MovOperand.addrs, Dest.addrs]))
        obtain ⟨g, hg⟩ := ok_reg hf (h1 _ (by simp [Inst.regs, RmOperand.regs, RmiOperand.regs, RiOperand.regs, MovOperand.regs, Dest.regs]; done))
        exact ⟨_, _, by simp only [RmOperand.mapAddr, rm, hg]; rfl, by simp only [RmOperand.mapAddr, rm, hA]; rfl, rfl⟩
      · obtain ⟨A, hA⟩ := ok_addr rel hf (r4 (by simp +contextual [Inst.regs, RmOperand.regs, RmiOperand.regs, XmOperand.regs, MovOperand.regs, Dest.regs]) (by simp [Inst.addrs, RmOperand.addrs, RmiOperand.addrs, XmOperand.addrs, MovOperand.addrs, Dest.addrs]))
        obtain ⟨g, hg⟩ := ok_reg hf (h1 _ (by simp [Inst.regs, RmOperand.regs, RmiOperand.regs, RiOperand.regs, MovOperand.regs, Dest.regs]; done))
        exact ⟨_, _, by simp only [RmOperand.mapAddr, rm, hA]; rfl, by simp only [RmOperand.mapAddr, rm, hg]; rfl, rfl⟩
    obtain ⟨A, B, hA, hB, hn⟩ := this
    simp only [Inst.mapAddr, RmOperand.mapAddr.eq_1, RmOperand.mapAddr.eq_2, RmiOperand.mapAddr.eq_1, RmiOperand.mapAddr.eq_2, RmiOperand.mapAddr.eq_3, XmOperand.mapAddr.eq_1, XmOperand.mapAddr.eq_2, MovOperand.mapAddr.eq_1, MovOperand.mapAddr.eq_2, MovOperand.mapAddr.eq_3, MovOperand.mapAddr.eq_4, Dest.mapAddr.eq_1, Dest.mapAddr.eq_2, Dest.mapAddr.eq_3, Dest.mapAddr.eq_4, meaning, Spec.xchg, hA, hB, Option.bind_eq_bind, Option.bind_some]
    cases A <;> cases B <;> first | (simp [notBothMem] at hn; done) | exact ⟨_, rfl⟩ | (dsimp only; split <;> (try split) <;> exact ⟨_, rfl⟩)
  case Movq a b =>
    cases a <;> cases b <;> simp only [items, It.movq, Except.ok.injEq, reduceCtorEq] at hi
    · rename_i r i sz
      split at hi
      · simp only [Except.ok.injEq] at hi; subst hi
        obtain ⟨g, hg⟩ := ok_o (noFail_left hf) (h1 _ (by simp [Inst.regs, RmOperand.regs, RmiOperand.regs, RiOperand.regs, MovOperand.regs, Dest.regs]; done))
        exact ⟨_, by simp only [Inst.mapAddr, RmOperand.mapAddr.eq_1, RmOperand.mapAddr.eq_2, RmiOperand.mapAddr.eq_1, RmiOperand.mapAddr.eq_2, RmiOperand.mapAddr.eq_3, XmOperand.mapAddr.eq_1, XmOperand.mapAddr.eq_2, MovOperand.mapAddr.eq_1, MovOperand.mapAddr.eq_2, MovOperand.mapAddr.eq_3, MovOperand.mapAddr.eq_4, Dest.mapAddr.eq_1, Dest.mapAddr.eq_2, Dest.mapAddr.eq_3, Dest.mapAddr.eq_4, meaning, Spec.movq, hg]; rfl⟩
      · cases hi
    · subst hi
      obtain ⟨g, hg⟩ := ok_reg hf (h1 _ (by simp [Inst.regs, RmOperand.regs, RmiOperand.regs, RiOperand.regs, MovOperand.regs, Dest.regs]; done))
      obtain ⟨g', hg'⟩ := ok_rmreg hf (h1 _ (by simp [Inst.regs, RmOperand.regs, RmiOperand.regs, RiOperand.regs, MovOperand.regs, Dest.regs]; done))
      exact ⟨_, by simp only [Inst.mapAddr, RmOperand.mapAddr.eq_1, RmOperand.mapAddr.eq_2, RmiOperand.mapAddr.eq_1, RmiOperand.mapAddr.eq_2, RmiOperand.mapAddr.eq_3, XmOperand.mapAddr.eq_1, XmOperand.mapAddr.eq_2, MovOperand.mapAddr.eq_1, MovOperand.mapAddr.eq_2, MovOperand.mapAddr.eq_3, MovOperand.mapAddr.eq_4, Dest.mapAddr.eq_1, Dest.mapAddr.eq_2, Dest.mapAddr.eq_3, Dest.mapAddr.eq_4, meaning, Spec.movq, hg, hg']; rfl⟩
    · subst hi
      obtain ⟨g', hg'⟩ := ok_rmreg (noFail_tail hf) (h1 _ (by simp [Inst.regs, RmOperand.regs, RmiOperand.regs, RiOperand.regs, MovOperand.regs, Dest.regs]; done))
      obtain ⟨g, hg⟩ := xmm_of_range (h2 _ (by simp [Inst.xmms, MovOperand.xmms]; rfl))
      exact ⟨_, by simp only [Inst.mapAddr, RmOperand.mapAddr.eq_1, RmOperand.mapAddr.eq_2, RmiOperand.mapAddr.eq_1, RmiOperand.mapAddr.eq_2, RmiOperand.mapAddr.eq_3, XmOperand.mapAddr.eq_1, XmOperand.mapAddr.eq_2, MovOperand.mapAddr.eq_1, MovOperand.mapAddr.eq_2, MovOperand.mapAddr.eq_3, MovOperand.mapAddr.eq_4, Dest.mapAddr.eq_1, Dest.mapAddr.eq_2, Dest.mapAddr.eq_3, Dest.mapAddr.eq_4, meaning, Spec.movq, hg, hg']; rfl⟩
    · subst hi
      obtain ⟨A, hA⟩ := ok_addr rel hf (r4 (by simp +contextual [Inst.regs, RmOperand.regs, RmiOperand.regs, XmOperand.regs, MovOperand.regs, Dest.regs]) (by simp [Inst.addrs, RmOperand.addrs, RmiOperand.addrs, XmOperand.addrs, MovOperand.addrs, Dest.addrs]))
      obtain ⟨g, hg⟩ := ok_reg hf (h1 _ (by simp [Inst.regs, RmOperand.regs, RmiOperand.regs, RiOperand.regs, MovOperand.regs, Dest.regs]; done))
      exact ⟨_, by simp only [Inst.mapAddr, RmOperand.mapAddr.eq_1, RmOperand.mapAddr.eq_2, RmiOperand.mapAddr.eq_1, RmiOperand.mapAddr.eq_2, RmiOperand.mapAddr.eq_3, XmOperand.mapAddr.eq_1, XmOperand.mapAddr.eq_2, MovOperand.mapAddr.eq_1, MovOperand.mapAddr.eq_2, MovOperand.mapAddr.eq_3, MovOperand.mapAddr.eq_4, Dest.mapAddr.eq_1, Dest.mapAddr.eq_2, Dest.mapAddr.eq_3, Dest.mapAddr.eq_4, meaning, Spec.movq, hg, hA]; rfl⟩
    · subst hi
      obtain ⟨g', hg'⟩ := ok_rmreg (noFail_tail hf) (h1 _ (by simp [Inst.regs, RmOperand.regs, RmiOperand.regs, RiOperand.regs, MovOperand.regs, Dest.regs]; done))
      obtain ⟨g, hg⟩ := xmm_of_range (h2 _ (by simp [Inst.xmms, MovOperand.xmms]; rfl))
      exact ⟨_, by simp only [Inst.mapAddr, RmOperand.mapAddr.eq_1, RmOperand.mapAddr.eq_2, RmiOperand.mapAddr.eq_1, RmiOperand.mapAddr.eq_2, RmiOperand.mapAddr.eq_3, XmOperand.mapAddr.eq_1, XmOperand.mapAddr.eq_2, MovOperand.mapAddr.eq_1, MovOperand.mapAddr.eq_2, MovOperand.mapAddr.eq_3, MovOperand.mapAddr.eq_4, Dest.mapAddr.eq_1, Dest.mapAddr.eq_2, Dest.mapAddr.eq_3, Dest.mapAddr.eq_4, meaning, Spec.movq, hg, hg']; rfl⟩
    · subst hi
      rename_i x y
      obtain ⟨g, hg⟩ := xmm_of_range (h2 x (by simp [Inst.xmms, MovOperand.xmms]))
      obtain ⟨g', hg'⟩ := xmm_of_range (h2 y (by simp [Inst.xmms, MovOperand.xmms]))
      exact ⟨_, by simp only [Inst.mapAddr, RmOperand.mapAddr.eq_1, RmOperand.mapAddr.eq_2, RmiOperand.mapAddr.eq_1, RmiOperand.mapAddr.eq_2, RmiOperand.mapAddr.eq_3, XmOperand.mapAddr.eq_1, XmOperand.mapAddr.eq_2, MovOperand.mapAddr.eq_1, MovOperand.mapAddr.eq_2, MovOperand.mapAddr.eq_3, MovOperand.mapAddr.eq_4, Dest.mapAddr.eq_1, Dest.mapAddr.eq_2, Dest.mapAddr.eq_3, Dest.mapAddr.eq_4, meaning, Spec.movq, hg, hg']; rfl⟩
    · subst hi
      obtain ⟨A, hA⟩ := ok_addr rel (noFail_tail hf) (r4 (by simp +contextual [Inst.regs, RmOperand.regs, RmiOperand.regs, XmOperand.regs, MovOperand.regs, Dest.regs]) (by simp [Inst.addrs, RmOperand.addrs, RmiOperand.addrs, XmOperand.addrs, MovOperand.addrs, Dest.addrs]))
      obtain ⟨g, hg⟩ := xmm_of_range (h2 _ (by simp [Inst.xmms, MovOperand.xmms]; rfl))
      exact ⟨_, by simp only [Inst.mapAddr, RmOperand.mapAddr.eq_1, RmOperand.mapAddr.eq_2, RmiOperand.mapAddr.eq_1, RmiOperand.mapAddr.eq_2, RmiOperand.mapAddr.eq_3, XmOperand.mapAddr.eq_1, XmOperand.mapAddr.eq_2, MovOperand.mapAddr.eq_1, MovOperand.mapAddr.eq_2, MovOperand.mapAddr.eq_3, MovOperand.mapAddr.eq_4, Dest.mapAddr.eq_1, Dest.mapAddr.eq_2, Dest.mapAddr.eq_3, Dest.mapAddr.eq_4, meaning, Spec.movq, hg, hA]; rfl⟩
    · rename_i m i sz
      cases sz <;> simp only [It.movq, Except.ok.injEq, reduceCtorEq] at hi
      subst hi
      revert hf
      split <;> intro hf
      · obtain ⟨A, hA⟩ := ok_addr rel hf (r4 (by simp +contextual [Inst.regs, RmOperand.regs, RmiOperand.regs, XmOperand.regs, MovOperand.regs, Dest.regs]) (by simp [Inst.addrs, RmOperand.addrs, RmiOperand.addrs, XmOperand.addrs, MovOperand.addrs, Dest.addrs]))
        exact ⟨_, by simp only [Inst.mapAddr, RmOperand.mapAddr.eq_1, RmOperand.mapAddr.eq_2, RmiOperand.mapAddr.eq_1, RmiOperand.mapAddr.eq_2, RmiOperand.mapAddr.eq_3, XmOperand.mapAddr.eq_1, XmOperand.mapAddr.eq_2, MovOperand.mapAddr.eq_1, MovOperand.mapAddr.eq_2, MovOperand.mapAddr.eq_3, MovOperand.mapAddr.eq_4, Dest.mapAddr.eq_1, Dest.mapAddr.eq_2, Dest.mapAddr.eq_3, Dest.mapAddr.eq_4, meaning, Spec.movq, hA]; rfl⟩
      · exact absurd hf noFail_fail
    · subst hi
      obtain ⟨A, hA⟩ := ok_addr rel hf (r4 (by simp +contextual [Inst.regs, RmOperand.regs, RmiOperand.regs, XmOperand.regs, MovOperand.regs, Dest.regs]) (by simp [Inst.addrs, RmOperand.addrs, RmiOperand.addrs, XmOperand.addrs, MovOperand.addrs, Dest.addrs]))
      obtain ⟨g, hg⟩ := ok_reg hf (h1 _ (by simp [Inst.regs, RmOperand.regs, RmiOperand.regs, RiOperand.regs, MovOperand.regs, Dest.regs]; done))
      exact ⟨_, by simp only [Inst.mapAddr, RmOperand.mapAddr.eq_1, RmOperand.mapAddr.eq_2, RmiOperand.mapAddr.eq_1, RmiOperand.mapAddr.eq_2, RmiOperand.mapAddr.eq_3, XmOperand.mapAddr.eq_1, XmOperand.mapAddr.eq_2, MovOperand.mapAddr.eq_1, MovOperand.mapAddr.eq_2, MovOperand.mapAddr.eq_3, MovOperand.mapAddr.eq_4, Dest.mapAddr.eq_1, Dest.mapAddr.eq_2, Dest.mapAddr.eq_3, Dest.mapAddr.eq_4, meaning, Spec.movq, hg, hA]; rfl⟩
    · subst hi
      obtain ⟨A, hA⟩ := ok_addr rel (noFail_tail hf) (r4 (by simp +contextual [Inst.regs, RmOperand.regs, RmiOperand.regs, XmOperand.regs, MovOperand.regs, Dest.regs]) (by simp [Inst.addrs, RmOperand.addrs, RmiOperand.addrs, XmOperand.addrs, MovOperand.addrs, Dest.addrs]))
      obtain ⟨g, hg⟩ := xmm_of_range (h2 _ (by simp [Inst.xmms, MovOperand.xmms]; rfl))
      exact ⟨_, by simp only [Inst.mapAddr, RmOperand.mapAddr.eq_1, RmOperand.mapAddr.eq_2, RmiOperand.mapAddr.eq_1, RmiOperand.mapAddr.eq_2, RmiOperand.mapAddr.eq_3, XmOperand.mapAddr.eq_1, XmOperand.mapAddr.eq_2, MovOperand.mapAddr.eq_1, MovOperand.mapAddr.eq_2, MovOperand.mapAddr.eq_3, MovOperand.mapAddr.eq_4, Dest.mapAddr.eq_1, Dest.mapAddr.eq_2, Dest.mapAddr.eq_3, Dest.mapAddr.eq_4, meaning, Spec.movq, hg, hA]; rfl⟩

theorem runs_dropped {i s s'} (hr : InFile i) (h : Runs i s s') :
    Valid (i.mapAddr dropRsp) ∨ (∃ l, i = .Label l) ∨ (∃ v, i = .I64 v) ∨ ∃ v, i = .F64 v := by
  obtain ⟨its, hi, ran⟩ := runs_items h
  exact items_dropped hr hi ran.noFail

theorem Inst.mapAddr_same {δ} {i : Inst Val Nat} (h : ∀ a ∈ i.addrs, δ a = a) : i.mapAddr δ = i := by
  have h1 : ∀ o : RmOperand Val Nat, (∀ a ∈ o.addrs, δ a = a) → o.mapAddr δ = o := by
    intro o h; cases o <;> simp_all [RmOperand.addrs, RmOperand.mapAddr]
  have h2 : ∀ o : RmiOperand Val Nat, (∀ a ∈ o.addrs, δ a = a) → o.mapAddr δ = o := by
    intro o h; cases o <;> simp_all [RmiOperand.addrs, RmiOperand.mapAddr]
  have h3 : ∀ o : XmOperand Val Nat, (∀ a ∈ o.addrs, δ a = a) → o.mapAddr δ = o := by
    intro o h; cases o <;> simp_all [XmOperand.addrs, XmOperand.mapAddr]
  have h4 : ∀ o : MovOperand Val Nat, (∀ a ∈ o.addrs, δ a = a) → o.mapAddr δ = o := by
    intro o h; cases o <;> simp_all [MovOperand.addrs, MovOperand.mapAddr]
  have h5 : ∀ o : Dest Val Nat, (∀ a ∈ o.addrs, δ a = a) → o.mapAddr δ = o := by
    intro o h; cases o <;> simp_all [Dest.addrs, Dest.mapAddr]
  cases i <;> simp only [Inst.addrs, List.mem_append] at h <;> simp only [Inst.mapAddr] <;>
    (try rw [h1 _ (fun a ha => h a (by simp [ha]))]) <;> (try rw [h1 _ (fun a ha => h a (by simp [ha]))]) <;>
    (try rw [h2 _ (fun a ha => h a (by simp [ha]))]) <;> (try rw [h2 _ (fun a ha => h a (by simp [ha]))]) <;>
    (try rw [h3 _ (fun a ha => h a (by simp [ha]))]) <;> (try rw [h3 _ (fun a ha => h a (by simp [ha]))]) <;>
    (try rw [h4 _ (fun a ha => h a (by simp [ha]))]) <;> (try rw [h4 _ (fun a ha => h a (by simp [ha]))]) <;>
    (try rw [h5 _ (fun a ha => h a (by simp [ha]))])

theorem dropRsp_same {i : Inst Val Nat} (hr : InRange i) : i.mapAddr dropRsp = i := by
  refine Inst.mapAddr_same fun a ha => ?_
  obtain ⟨b, sc, d⟩ := a
  cases sc with
  | none => rfl
  | s1 sc r => simp only [dropRsp, (hr.scale _ ha sc r rfl).2, false_and, if_false]

theorem InRange.inFile {i} (hr : InRange i) : InFile i :=
  ⟨hr.regs, hr.xmms, fun a ha sc r h => (hr.scale a ha sc r h).1⟩

/-- A statement that is assembled denotes an instruction. -/
theorem runs_valid {i s s'} (hr : InRange i) (h : Runs i s s') :
    Valid i ∨ (∃ l, i = .Label l) ∨ (∃ v, i = .I64 v) ∨ ∃ v, i = .F64 v := by
  have := runs_dropped (InRange.inFile hr) h
  rwa [dropRsp_same hr] at this

/-- The code of a statement is that of the statement without an index `rsp`. -/
theorem dropped_faithful {i : Inst Val Nat} (h1 : ∀ a b c, i ≠ .Roundpd a b c)
    (h2 : ∀ a b, i ≠ .Cvttsd2siq a b) {s s' la mem I} (h : Runs i s s') (hl : Linked s s' la mem) (hn : Near la (here s'))
    (hM : meaning (dist la (here s')) (i.mapAddr dropRsp) = some I) (rest) :
    X86.decode (bytes mem (here s) (here s' - here s) ++ rest) = some (I, rest) := by
  obtain ⟨its, hi, hran⟩ := runs_items h
  have hh := hran.here
  have e : here s' - here s = lenOf its := by omega
  rw [e, linked_bytes hran hl (slotsOk_items hi h1)]
  have hA : actual (dist la (here s')) (i.mapAddr dropRsp) = some I := by
    cases i <;> first | exact hM | exact absurd rfl (h2 _ _)
  exact (decode_dropped (near_fits hn) _ hA hi (hran.noFail _)).dec rest

end Monoasm
