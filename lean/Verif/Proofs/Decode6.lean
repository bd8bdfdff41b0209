import Verif.Proofs.Decode5
/-
  Every statement that compiles, and whose items do not panic, decodes to its meaning.
-/

set_option linter.unusedSimpArgs false

namespace Monoasm
open X86 (Pfx)

/-- The instruction actually assembled: the meaning, except that `cvttsd2siq` yields the 32-bit
    conversion. -/
def actual (rel : Nat → BitVec 64) : Inst V DestLabel → Option X86.Instr
  | .Cvttsd2siq a b => do return .cvttf2si .sd .d (.gpr (← Spec.gpr a)) (← Spec.xm rel b)
  | i => Spec.meaning rel i

theorem ri_reg {r o} (h : Spec.ri (.reg r) = some o) :
    ∃ g, Spec.gpr r = some g ∧ o = .gpr g := by
  cases hg : Spec.gpr r <;> simp [Spec.ri, hg] at h
  exact ⟨_, rfl, h.symm⟩

section
variable {rel : Nat → BitVec 64} {ψ : DestLabel → BitVec 32}
  {δ : IndAddr V DestLabel → IndAddr V DestLabel} (hδ : Encodes rel ψ δ)
  {I : X86.Instr} {its : List Item}

theorem bind_some2 {α β γ : Type} {x : Option α} {y : Option β} {f : α → β → γ} {z : γ}
    (h : (do let a ← x; let b ← y; return f a b) = some z) :
    ∃ a b, x = some a ∧ y = some b ∧ f a b = z := by
  cases x <;> cases y <;> simp at h
  exact ⟨_, _, rfl, rfl, h⟩

theorem bind_some1 {α γ : Type} {x : Option α} {f : α → γ} {z : γ}
    (h : (do let a ← x; return f a) = some z) : ∃ a, x = some a ∧ f a = z := by
  cases x <;> simp at h
  exact ⟨_, rfl, h⟩

theorem rax_iff {r : Reg} (h : r.num < 16#8) : r = Reg.from 0 ↔ r.num.setWidth 4 = 0#4 := by
  obtain ⟨n⟩ := r
  simp only [Reg.from, Reg.mk.injEq]
  revert n; decide +kernel

theorem is_rax_iff {r : Reg} (h : r.num < 16#8) : r.is_rax = true ↔ r.num.setWidth 4 = 0#4 := by
  obtain ⟨n⟩ := r
  simp only [Reg.is_rax, Reg.rax, Reg.from, Reg.mk.injEq, decide_eq_true_eq]
  revert n; decide +kernel

theorem is_cl_iff {r : Reg} (h : r.num < 16#8) : r.is_cl = true ↔ r.num.setWidth 4 = 1#4 := by
  obtain ⟨n⟩ := r
  simp only [Reg.is_cl, Reg.from, Reg.mk.injEq, decide_eq_true_eq]
  revert n; decide +kernel

include hδ

/-- `movl`, `movw`, `movb` -/
def It.movSz (sz : X86.Size) (a : RmOperand V DestLabel) (b : RmiOperand V DestLabel) :
    Except CompileError (List Item) :=
  match sz with
  | .d => It.movl a b
  | .w => It.movw a b
  | .b => It.movb a b
  | .q => .error .unimplemented

theorem dec_mov (sz : X86.Size) (a b) (hM : Spec.mov rel sz (a.mapAddr δ) (b.mapAddr δ) = some I)
    (hI : It.movSz sz a b = .ok its) (hN : Item.fail .immOutOfRange ∉ its) : Dec ψ its I := by
  simp only [Spec.mov, Option.bind_eq_bind, Option.bind_eq_some_iff] at hM
  obtain ⟨d, hd, s, hs, hM⟩ := hM
  split at hM
  case isFalse => cases hM
  cases hM
  obtain ⟨RM, hRM, rfl⟩ := rm_some hδ hd
  cases b with
  | imm i =>
    cases hs
    cases a with
    | reg r =>
      obtain ⟨g, hg, hh⟩ := rm_reg hd
      obtain ⟨hlt, rfl⟩ := gpr_some hg
      rw [hh]
      cases sz <;> simp only [It.movSz, It.movl, It.movw, It.movb] at hI <;> cases hI
      · cases h8 : i8TryFrom i with
        | some v => exact movb_ri hlt h8
        | none => simp [h8] at hN
      · cases h8 : i16TryFrom i with
        | some v => exact movw_ri hlt h8
        | none => simp [h8] at hN
      · cases h8 : i32TryFrom i with
        | some v => exact movl_ri hlt h8
        | none => simp [h8] at hN
    | ind m =>
      cases sz <;> simp only [It.movSz, It.movl, It.movw, It.movb] at hI <;> cases hI
      · cases h8 : i8TryFrom i with
        | some v => exact mov_mi_b h8 hRM
        | none => simp [h8] at hN
      · cases h8 : i16TryFrom i with
        | some v => exact mov_mi_w h8 hRM
        | none => simp [h8] at hN
      · cases h8 : i32TryFrom i with
        | some v => exact mov_mi_d h8 hRM
        | none => simp [h8] at hN
  | reg r =>
    obtain ⟨g, hg, rfl⟩ := rmi_reg hs
    obtain ⟨hlt, rfl⟩ := gpr_some hg
    cases sz <;> simp only [It.movSz, It.movl, It.movw, It.movb] at hI <;> cases hI
    · exact mov_mr_b hlt hRM
    · exact mov_mr_w hlt hRM
    · exact mov_mr_d hlt hRM
  | ind m =>
    obtain ⟨A, hA, rfl⟩ := rmi_ind hs
    have hA' := hδ hA
    cases a with
    | ind m' => cases sz <;> simp [It.movSz, It.movl, It.movw, It.movb] at hI
    | reg r =>
      obtain ⟨g, hg, hh⟩ := rm_reg hd
      obtain ⟨hlt, rfl⟩ := gpr_some hg
      rw [hh]
      cases sz <;> simp only [It.movSz, It.movl, It.movw, It.movb] at hI <;> cases hI
      · exact mov_rm_b hlt hA'
      · exact mov_rm_w hlt hA'
      · exact mov_rm_d hlt hA'

theorem dec_movq (a b) (hM : Spec.movq rel (a.mapAddr δ) (b.mapAddr δ) = some I) (hI : It.movq a b = .ok its) (hN : Item.fail .immOutOfRange ∉ its) :
    Dec ψ its I := by
  cases a <;> cases b <;> simp only [It.movq] at hI <;> try (cases hI; done)
  all_goals simp only [MovOperand.mapAddr, Spec.movq] at hM
  case reg.imm r i sz =>
    obtain ⟨g, hg, rfl⟩ := bind_some1 hM
    obtain ⟨hlt, rfl⟩ := gpr_some hg
    split at hI <;> cases hI
    exact movq_ri hlt i
  case ind.imm m i sz =>
    obtain ⟨A, hA, rfl⟩ := bind_some1 hM
    have hA' := hδ hA
    cases sz with
    | some s => simp only [It.movq] at hI; cases hI
    | none =>
      simp only [It.movq] at hI
      cases hI
      cases h8 : i32TryFrom i with
      | some v => exact mov_mi_q h8 hA'
      | none => simp [h8] at hN
  all_goals
    obtain ⟨x, y, hx, hy, rfl⟩ := bind_some2 hM
    cases hI
  case reg.reg =>
    obtain ⟨h1, rfl⟩ := gpr_some hx; obtain ⟨h2, rfl⟩ := gpr_some hy
    exact mov_mr_q h2 (reg_rm ψ h1)
  case reg.ind =>
    obtain ⟨h1, rfl⟩ := gpr_some hx
    exact mov_rm_q h1 (hδ hy)
  case reg.xmm =>
    obtain ⟨h1, rfl⟩ := gpr_some hx; obtain ⟨h2, rfl⟩ := xmm_some hy
    exact movq_rx h2 (reg_rm ψ h1)
  case ind.reg =>
    obtain ⟨h1, rfl⟩ := gpr_some hy
    exact mov_mr_q h1 (hδ hx)
  case ind.xmm =>
    obtain ⟨h1, rfl⟩ := xmm_some hy
    exact movq_mx h1 (hδ hx)
  case xmm.reg =>
    obtain ⟨h1, rfl⟩ := xmm_some hx; obtain ⟨h2, rfl⟩ := gpr_some hy
    exact movq_xr h1 (reg_rm ψ h2)
  case xmm.ind =>
    obtain ⟨h1, rfl⟩ := xmm_some hx
    exact movq_xx h1 (hδ hy)
  case xmm.xmm =>
    obtain ⟨h1, rfl⟩ := xmm_some hx; obtain ⟨h2, rfl⟩ := xmm_some hy
    exact movq_xx h1 (reg_rm ψ h2)

theorem dec_shift (op sz a b) (hM : Spec.shift rel op sz (a.mapAddr δ) b = some I)
    (hI : It.shift_op sz (shDigit op) a b = .ok its) (hN : Item.fail .immOutOfRange ∉ its) : Dec ψ its I := by
  simp only [Spec.shift, Option.bind_eq_bind, Option.bind_eq_some_iff] at hM
  obtain ⟨d, hd, c, hc, hM⟩ := hM
  obtain ⟨RM, hRM, rfl⟩ := rm_some hδ hd
  cases b with
  | imm i =>
    cases hc
    cases hM
    cases sz <;> simp only [It.shift_op] at hI <;> cases hI <;> simp only [Spec.size]
    · by_cases h1 : i = 1
      · subst h1; exact sh1_q op hRM
      · simp only [h1, if_false] at hN ⊢
        cases h8 : i8TryFrom i with
        | some v => exact shi_q op h8 hRM
        | none => simp [h8] at hN
    · by_cases h1 : i = 1
      · subst h1; exact sh1_d op hRM
      · simp only [h1, if_false] at hN ⊢
        cases h8 : i8TryFrom i with
        | some v => exact shi_d op h8 hRM
        | none => simp [h8] at hN
  | reg r =>
    obtain ⟨g, hg, rfl⟩ := ri_reg hc
    obtain ⟨hlt, rfl⟩ := gpr_some hg
    simp only at hM
    split at hM
    case isFalse => cases hM
    rename_i h1
    cases hM
    have hcl := (is_cl_iff hlt).2 h1
    rw [h1]
    cases sz <;> simp only [It.shift_op, hcl, if_true] at hI <;> cases hI <;> simp only [Spec.size]
    · exact shcl_q op hRM
    · exact shcl_d op hRM

theorem dec_xchg (sz a b) (hM : Spec.xchg rel sz (a.mapAddr δ) (b.mapAddr δ) = some I)
    (hI : items (.Xchg sz a b) = .ok its) : Dec ψ its I := by
  simp only [Spec.xchg, Option.bind_eq_bind, Option.bind_eq_some_iff] at hM
  obtain ⟨x, hx, y, hy, hM⟩ := hM
  simp only [items] at hI
  cases sz <;> simp only at hI <;> try (cases hI; done)
  cases a with
  | reg r =>
    obtain ⟨g, hg, rfl⟩ := rm_reg hx
    obtain ⟨hlt, rfl⟩ := gpr_some hg
    cases b with
    | reg r2 =>
      obtain ⟨g2, hg2, rfl⟩ := rm_reg hy
      obtain ⟨hlt2, rfl⟩ := gpr_some hg2
      cases hI
      simp only [rax_iff hlt, rax_iff hlt2]
      simp only [Spec.size] at hM
      split at hM
      · rename_i h1
        simp only [h1, if_true]
        split at hM
        · rename_i h2
          cases hM
          simp only [h2.1, if_true]
          exact nop_ok
        · rename_i h2
          cases hM
          have h3 : ¬ r2.toReg.num.setWidth 4 = 0#4 := fun h => h2 ⟨h, trivial⟩
          simp only [h3, if_false]
          rw [h1]
          exact xchg_reg hlt2 h3
      · rename_i h1
        cases hM
        simp only [h1, if_false]
        split
        · rename_i h2
          rw [h2]
          exact xchg_reg hlt h1
        · exact xchg_mr hlt2 (reg_rm ψ hlt)
    | ind m =>
      obtain ⟨A, hA, rfl⟩ := rm_ind hy
      cases hI; cases hM
      exact xchg_mr hlt (hδ hA)
  | ind m =>
    obtain ⟨A, hA, rfl⟩ := rm_ind hx
    cases b with
    | reg r2 =>
      obtain ⟨g2, hg2, rfl⟩ := rm_reg hy
      obtain ⟨hlt2, rfl⟩ := gpr_some hg2
      cases hI; cases hM
      exact xchg_mr hlt2 (hδ hA)
    | ind m' => cases hI

theorem dec_testq (a b) (hM : Spec.meaning rel (.Testq (a.mapAddr δ) b) = some I)
    (hI : items (.Testq a b) = .ok its) (hN : Item.fail .immOutOfRange ∉ its) : Dec ψ its I := by
  obtain ⟨x, y, hx, hy, rfl⟩ := bind_some2 hM
  obtain ⟨RM, hRM, rfl⟩ := rm_some hδ hx
  simp only [items] at hI
  cases b with
  | imm i =>
    cases hy
    cases a with
    | reg r =>
      obtain ⟨g, hg, hh⟩ := rm_reg hx
      obtain ⟨hlt, rfl⟩ := gpr_some hg
      cases hI
      cases h8 : i32TryFrom i with
      | none => simp [h8] at hN
      | some v =>
        simp only
        split
        · rename_i h1
          rw [hh, (is_rax_iff hlt).1 h1]
          exact test_rax_q h8
        · exact test_mi_q h8 hRM
    | ind m =>
      cases hI
      cases h8 : i32TryFrom i with
      | none => simp [h8] at hN
      | some v => exact test_mi_q h8 hRM
  | reg r =>
    obtain ⟨g, hg, rfl⟩ := ri_reg hy
    obtain ⟨hlt, rfl⟩ := gpr_some hg
    cases hI
    exact test_mr_q hlt hRM

theorem dec_testb (a b) (hM : Spec.meaning rel (.Testb (a.mapAddr δ) b) = some I)
    (hI : items (.Testb a b) = .ok its) (hN : Item.fail .immOutOfRange ∉ its) : Dec ψ its I := by
  obtain ⟨x, y, hx, hy, rfl⟩ := bind_some2 hM
  obtain ⟨RM, hRM, rfl⟩ := rm_some hδ hx
  simp only [items] at hI
  cases b with
  | imm i =>
    cases hy
    cases a with
    | reg r =>
      obtain ⟨g, hg, hh⟩ := rm_reg hx
      obtain ⟨hlt, rfl⟩ := gpr_some hg
      cases hI
      cases h8 : i8TryFrom i with
      | none => simp [h8] at hN
      | some v =>
        simp only
        split
        · rename_i h1
          rw [hh, (is_rax_iff hlt).1 h1]
          exact test_rax_b h8
        · exact test_mi_b h8 hRM
    | ind m =>
      cases hI
      cases h8 : i8TryFrom i with
      | none => simp [h8] at hN
      | some v => exact test_mi_b h8 hRM
  | reg r =>
    obtain ⟨g, hg, rfl⟩ := ri_reg hy
    obtain ⟨hlt, rfl⟩ := gpr_some hg
    cases hI
    exact test_mr_b hlt hRM

theorem dec_imul (a b) (hM : Spec.meaning rel (.Imul (a.mapAddr δ) (b.mapAddr δ)) = some I)
    (hI : items (.Imul a b) = .ok its) : Dec ψ its I := by
  simp only [items] at hI
  cases a with
  | ind m => simp [Spec.meaning, RmiOperand.mapAddr] at hM
  | imm i => simp [Spec.meaning, RmiOperand.mapAddr] at hM
  | reg r =>
    simp only [Spec.meaning, RmiOperand.mapAddr, Option.bind_eq_bind, Option.bind_eq_some_iff] at hM
    obtain ⟨g, hg, o, ho, hM⟩ := hM
    obtain ⟨hlt, rfl⟩ := gpr_some hg
    cases b with
    | imm i => cases hI
    | reg r2 =>
      obtain ⟨g2, hg2, rfl⟩ := rmi_reg ho
      obtain ⟨hlt2, rfl⟩ := gpr_some hg2
      cases hI; cases hM
      exact imul_ok hlt (reg_rm ψ hlt2)
    | ind m =>
      obtain ⟨A, hA, rfl⟩ := rmi_ind ho
      cases hI; cases hM
      exact imul_ok hlt (hδ hA)

theorem dec_movsd (a b) (hM : Spec.meaning rel (.Movsd (a.mapAddr δ) (b.mapAddr δ)) = some I)
    (hI : items (.Movsd a b) = .ok its) : Dec ψ its I := by
  simp only [items] at hI
  simp only [Spec.meaning, Option.bind_eq_bind, Option.bind_eq_some_iff] at hM
  obtain ⟨x, hx, y, hy, hM⟩ := hM
  split at hM
  case isFalse => cases hM
  cases hM
  cases a with
  | xmm a =>
    obtain ⟨g, hg, rfl⟩ := xm_xmm hx
    obtain ⟨hlt, rfl⟩ := xmm_some hg
    obtain ⟨RM, hRM, rfl⟩ := xm_some hδ hy
    cases hI
    exact movsd_load hlt hRM
  | ind m =>
    obtain ⟨A, hA, rfl⟩ := xm_ind hx
    cases b with
    | ind m' => cases hI
    | xmm b =>
      obtain ⟨g, hg, rfl⟩ := xm_xmm hy
      obtain ⟨hlt, rfl⟩ := xmm_some hg
      cases hI
      exact movsd_store hlt (hδ hA)

theorem dec_sse {f : X86.Opd → X86.Opd → X86.Instr} {a} {b : XmOperand V DestLabel} (hM : Spec.sse rel f a (b.mapAddr δ) = some I)
    (h : ∀ RM, rmRM ψ b.toRm = some RM → a.toReg.num < 16#8 →
      Dec ψ its (f (.xmm (a.toReg.num.setWidth 4)) (X86.xmOpd RM))) : Dec ψ its I := by
  obtain ⟨x, y, hx, hy, rfl⟩ := bind_some2 hM
  obtain ⟨hlt, rfl⟩ := xmm_some hx
  obtain ⟨RM, hRM, rfl⟩ := xm_some hδ hy
  exact h RM hRM hlt

theorem dec_ext {f : X86.Opd → X86.Opd → X86.Instr} {a} {b : RmOperand V DestLabel} (hM : Spec.ext rel f a (b.mapAddr δ) = some I)
    (h : ∀ RM, rmRM ψ b.toRm = some RM → a.toReg.num < 16#8 →
      Dec ψ its (f (.gpr (a.toReg.num.setWidth 4)) (opd RM))) : Dec ψ its I := by
  obtain ⟨x, y, hx, hy, rfl⟩ := bind_some2 hM
  obtain ⟨hlt, rfl⟩ := gpr_some hx
  obtain ⟨RM, hRM, rfl⟩ := rm_some hδ hy
  exact h RM hRM hlt

theorem dec_un {op sz} {a : RmOperand V DestLabel} (hM : Spec.un rel op sz (a.mapAddr δ) = some I)
    (h : ∀ RM, rmRM ψ a.toRm = some RM → Dec ψ its (.un op sz (opd RM))) : Dec ψ its I := by
  obtain ⟨x, hx, rfl⟩ := bind_some1 hM
  obtain ⟨RM, hRM, rfl⟩ := rm_some hδ hx
  exact h RM hRM

theorem dec_cnt (op : X86.CntOp) (ho : op = .tzcnt ∨ op = .lzcnt ∨ op = .popcnt) (sz a) (b : RmOperand V DestLabel)
    (hM : (if sz = .BYTE then none else do
      return X86.Instr.cnt op (Spec.size sz) (.gpr (← Spec.gpr a)) (← Spec.rm rel (b.mapAddr δ))) = some I)
    (hI : It.count_op sz (cntOpc op) a b = .ok its) : Dec ψ its I := by
  split at hM
  · cases hM
  obtain ⟨x, y, hx, hy, rfl⟩ := bind_some2 hM
  obtain ⟨hlt, rfl⟩ := gpr_some hx
  obtain ⟨RM, hRM, rfl⟩ := rm_some hδ hy
  cases sz <;> simp only [It.count_op] at hI <;> cases hI <;> simp only [Spec.size]
  · exact cnt_q op ho hlt hRM
  · exact cnt_d op ho hlt hRM

/-- **Encoder correctness.** The items of every statement decode to the instruction actually
    assembled, whenever the statement denotes an instruction and the items do not panic; the memory
    operands are those encoded. -/
theorem decode_mapAddr (hf : Fits rel ψ) (i : Inst V DestLabel) (hM : actual rel (i.mapAddr δ) = some I) (hI : items i = .ok its)
    (hN : Item.fail .immOutOfRange ∉ its) : Dec ψ its I := by
  cases i <;> simp only [Inst.mapAddr, actual, Spec.meaning] at hM
  all_goals (try (cases hM; done))
  case Movq => exact dec_movq hδ _ _ hM hI hN
  case Movl => exact dec_mov hδ .d _ _ hM hI hN
  case Movw => exact dec_mov hδ .w _ _ hM hI hN
  case Movb => exact dec_mov hδ .b _ _ hM hI hN
  case Movsxl => cases hI; exact dec_ext hδ hM fun RM h hr => movsxl_ok hr h
  case Movzxw => cases hI; exact dec_ext hδ hM fun RM h hr => movzxw_ok hr h
  case Movsxw => cases hI; exact dec_ext hδ hM fun RM h hr => movsxw_ok hr h
  case Movzxb => cases hI; exact dec_ext hδ hM fun RM h hr => movzxb_ok hr h
  case Movsxb => cases hI; exact dec_ext hδ hM fun RM h hr => movsxb_ok hr h
  case Add => exact dec_alu hδ .add _ _ _ hM hI hN
  case Or => exact dec_alu hδ .or _ _ _ hM hI hN
  case Adc => exact dec_alu hδ .adc _ _ _ hM hI hN
  case Sbb => exact dec_alu hδ .sbb _ _ _ hM hI hN
  case And => exact dec_alu hδ .and _ _ _ hM hI hN
  case Sub => exact dec_alu hδ .sub _ _ _ hM hI hN
  case Xor => exact dec_alu hδ .xor _ _ _ hM hI hN
  case Cmp => exact dec_alu hδ .cmp _ _ _ hM hI hN
  case Xchg => exact dec_xchg hδ _ _ _ hM hI
  case Negq => cases hI; exact dec_un hδ hM fun RM h => neg_ok h
  case Shl => exact dec_shift hδ .shl _ _ _ hM hI hN
  case Shr => exact dec_shift hδ .shr _ _ _ hM hI hN
  case Sal => exact dec_shift hδ .shl _ _ _ hM hI hN
  case Sar => exact dec_shift hδ .sar _ _ _ hM hI hN
  case Rol => exact dec_shift hδ .rol _ _ _ hM hI hN
  case Ror => exact dec_shift hδ .ror _ _ _ hM hI hN
  case Imul => exact dec_imul hδ _ _ hM hI
  case Idiv => cases hI; exact dec_un hδ hM fun RM h => idiv_q h
  case Idivl => cases hI; exact dec_un hδ hM fun RM h => idiv_d h
  case Div => cases hI; exact dec_un hδ hM fun RM h => div_q h
  case Divl => cases hI; exact dec_un hδ hM fun RM h => div_d h
  case Lea a b =>
    cases a <;> cases b <;> simp only [RmOperand.mapAddr] at hM <;> try (cases hM; done)
    obtain ⟨x, y, hx, hy, rfl⟩ := bind_some2 hM
    obtain ⟨hlt, rfl⟩ := gpr_some hx
    cases hI
    exact lea_ok hlt (hδ hy)
  case Testq => exact dec_testq hδ _ _ hM hI hN
  case Testb => exact dec_testb hδ _ _ hM hI hN
  case Setcc c a =>
    cases hI
    obtain ⟨x, hx, rfl⟩ := bind_some1 hM
    obtain ⟨RM, hRM, rfl⟩ := rm_some hδ hx
    exact setcc_ok c hRM
  case Cmovcc sz c a b =>
    split at hM
    · cases hM
    obtain ⟨x, y, hx, hy, rfl⟩ := bind_some2 hM
    obtain ⟨hlt, rfl⟩ := gpr_some hx
    obtain ⟨RM, hRM, rfl⟩ := rm_some hδ hy
    cases sz <;> simp only [items] at hI <;> cases hI <;> simp only [Spec.size]
    · exact cmov_q c hlt hRM
    · exact cmov_d c hlt hRM
    · exact cmov_w c hlt hRM
  case Cqo => cases hM; cases hI; exact cqo_ok
  case Cdq => cases hM; cases hI; exact cdq_ok
  case Movsd => exact dec_movsd hδ _ _ hM hI
  case Addsd => cases hI; exact dec_sse hδ hM fun RM h hr => fop_sd .add hr h
  case Subsd => cases hI; exact dec_sse hδ hM fun RM h hr => fop_sd .sub hr h
  case Mulsd => cases hI; exact dec_sse hδ hM fun RM h hr => fop_sd .mul hr h
  case Divsd => cases hI; exact dec_sse hδ hM fun RM h hr => fop_sd .div hr h
  case Minsd => cases hI; exact dec_sse hδ hM fun RM h hr => fop_sd .min hr h
  case Maxsd => cases hI; exact dec_sse hδ hM fun RM h hr => fop_sd .max hr h
  case Sqrtsd => cases hI; exact dec_sse hδ hM fun RM h hr => fop_sd .sqrt hr h
  case Sqrtpd => cases hI; exact dec_sse hδ hM fun RM h hr => fop_pd .sqrt hr h
  case Xorps => cases hI; exact dec_sse hδ hM fun RM h hr => xorps_ok hr h
  case UComIsd => cases hI; exact dec_sse hδ hM fun RM h hr => ucomisd_ok hr h
  case Andpd => cases hI; exact dec_sse hδ hM fun RM h hr => andpd_ok hr h
  case Xorpd => cases hI; exact dec_sse hδ hM fun RM h hr => xorpd_ok hr h
  case Roundpd a b m => cases hI; exact dec_sse hδ hM fun RM h hr => roundpd_ok _ hr h
  case Cvtsi2sdq a b =>
    cases hI
    obtain ⟨x, y, hx, hy, rfl⟩ := bind_some2 hM
    obtain ⟨hlt, rfl⟩ := xmm_some hx
    obtain ⟨RM, hRM, rfl⟩ := rm_some hδ hy
    exact cvtsi2sd_ok hlt hRM
  case Cvttsd2siq a b =>
    cases hI
    obtain ⟨x, y, hx, hy, rfl⟩ := bind_some2 hM
    obtain ⟨hlt, rfl⟩ := gpr_some hx
    obtain ⟨RM, hRM, rfl⟩ := xm_some hδ hy
    exact cvttsd2si_d hlt hRM
  case Pushq a =>
    cases hI
    obtain ⟨x, hx, rfl⟩ := bind_some1 hM
    cases a with
    | reg r =>
      obtain ⟨g, hg, rfl⟩ := rm_reg hx
      obtain ⟨hlt, rfl⟩ := gpr_some hg
      exact push_reg hlt
    | ind m =>
      obtain ⟨A, hA, rfl⟩ := rm_ind hx
      exact push_mem (hδ hA)
  case Popq a =>
    cases hI
    obtain ⟨x, hx, rfl⟩ := bind_some1 hM
    cases a with
    | reg r =>
      obtain ⟨g, hg, rfl⟩ := rm_reg hx
      obtain ⟨hlt, rfl⟩ := gpr_some hg
      exact pop_reg hlt
    | ind m =>
      obtain ⟨A, hA, rfl⟩ := rm_ind hx
      exact pop_mem (hδ hA)
  case Jmp d =>
    cases d <;> simp only [Dest.mapAddr] at hM
    case reg n =>
      cases hI
      obtain ⟨g, hg, rfl⟩ := bind_some1 hM
      obtain ⟨hlt, rfl⟩ := gpr_some hg
      exact jmp_ind (reg_rm ψ hlt)
    case rel l => cases hM; cases hI; rw [hf l]; exact jmp_rel l
    case disp e => cases hI
    case ind m =>
      cases hI
      obtain ⟨A, hA, rfl⟩ := bind_some1 hM
      exact jmp_ind (hδ hA)
  case Jcc c l => cases hM; cases hI; rw [hf l]; exact jcc_rel c l
  case Call d =>
    cases d <;> simp only [Dest.mapAddr] at hM
    case reg n =>
      cases hI
      obtain ⟨g, hg, rfl⟩ := bind_some1 hM
      obtain ⟨hlt, rfl⟩ := gpr_some hg
      exact call_ind (reg_rm ψ hlt)
    case rel l => cases hM; cases hI; rw [hf l]; exact call_rel l
    case disp e =>
      cases hM; cases hI
      cases h8 : i32TryFrom e with
      | some v => exact call_disp h8
      | none => simp [h8] at hN
    case ind m =>
      cases hI
      obtain ⟨A, hA, rfl⟩ := bind_some1 hM
      exact call_ind (hδ hA)
  case Leave => cases hM; cases hI; exact leave_ok
  case Ret => cases hM; cases hI; exact ret_ok
  case Syscall => cases hM; cases hI; exact syscall_ok
  case Int3 => cases hM; cases hI; exact int3_ok
  case Lzcnt => exact dec_cnt hδ .lzcnt (by simp) _ _ _ hM hI
  case Tzcnt => exact dec_cnt hδ .tzcnt (by simp) _ _ _ hM hI
  case Popcnt => exact dec_cnt hδ .popcnt (by simp) _ _ _ hM hI

end

theorem Inst.mapAddr_id (i : Inst V DestLabel) : i.mapAddr id = i := by
  have h1 : ∀ o : RmOperand V DestLabel, o.mapAddr id = o := by intro o; cases o <;> rfl
  have h2 : ∀ o : RmiOperand V DestLabel, o.mapAddr id = o := by intro o; cases o <;> rfl
  have h3 : ∀ o : XmOperand V DestLabel, o.mapAddr id = o := by intro o; cases o <;> rfl
  have h4 : ∀ o : MovOperand V DestLabel, o.mapAddr id = o := by intro o; cases o <;> rfl
  have h5 : ∀ o : Dest V DestLabel, o.mapAddr id = o := by intro o; cases o <;> rfl
  cases i <;> simp only [Inst.mapAddr, h1, h2, h3, h4, h5]

/-- A statement that denotes an instruction. -/
theorem decode_items {rel ψ I its} (hf : Fits rel ψ) (i : Inst V DestLabel) (hM : actual rel i = some I)
    (hI : items i = .ok its) (hN : Item.fail .immOutOfRange ∉ its) : Dec ψ its I :=
  decode_mapAddr (δ := id) (fun h => addr_some hf h) hf i (by rw [i.mapAddr_id]; exact hM) hI hN

/-- A statement that denotes an instruction when the index `rsp` is left out. -/
theorem decode_dropped {rel ψ I its} (hf : Fits rel ψ) (i : Inst V DestLabel)
    (hM : actual rel (i.mapAddr Spec.dropRsp) = some I)
    (hI : items i = .ok its) (hN : Item.fail .immOutOfRange ∉ its) : Dec ψ its I :=
  decode_mapAddr (fun h => addr_dropped hf h) hf i hM hI hN

end Monoasm
