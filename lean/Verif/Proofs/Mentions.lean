import Verif.Spec.Mentions
import Verif.Proofs.LabelAddr
/-
  A label mentioned by a statement is referred to by the code it runs.
-/

set_option linter.unusedSimpArgs false

namespace Monoasm
open JitMemory

/-- The items refer to label `l`, bind it, or fail. -/
def Hits (l : DestLabel) (its : List Item) : Prop :=
  ∃ it ∈ its, (∃ off, it = .rel l off) ∨ it = .bind l ∨ ∃ e, it = .fail e

theorem Hits.left {l a} (b : List Item) (h : Hits l a) : Hits l (a ++ b) := by
  obtain ⟨it, hm, h⟩ := h; exact ⟨it, by simp [hm], h⟩
theorem Hits.right {l b} (a : List Item) (h : Hits l b) : Hits l (a ++ b) := by
  obtain ⟨it, hm, h⟩ := h; exact ⟨it, by simp [hm], h⟩
theorem Hits.cons {l b} (a : Item) (h : Hits l b) : Hits l (a :: b) := h.right [a]
theorem Hits.fail {l e} : Hits l [.fail e] := ⟨_, by simp, .inr (.inr ⟨e, rfl⟩)⟩

theorem hits_disp {l} (imm) : Hits l (dispItems imm (.label l)) := ⟨.rel l (4 + imm.offset), by simp [dispItems], .inl ⟨_, rfl⟩⟩

theorem hits_enc {l op k mm imm} {a : IndAddr V DestLabel} (h : l ∈ a.labels) :
    Hits l (encItems op k mm a.toRm imm) := by
  have hd : a.toRm.mode = .ind a.scale.toScale (.label l) := by
    simp only [IndAddr.labels] at h
    cases e : a.disp with
    | label l' => rw [e] at h; simp [MDisp.labels] at h; subst h
                  simp [IndAddr.toRm, e, MDisp.toDisp, Rm.ind, Disp.from_label]
    | imm d => rw [e] at h; simp [MDisp.labels] at h
    | expr n d => rw [e] at h; simp [MDisp.labels] at h
  simp only [encItems]
  split
  · exact .fail
  split
  · have : ∀ rm, Rm.rip_ind_from a.toRm = .ok rm → rm.mode.disp = .label l := by
      intro rm h
      simp only [Rm.rip_ind_from, hd] at h
      cases e : a.scale.toScale <;> rw [e] at h <;> simp at h
      subst h; rfl
    cases e : Rm.rip_ind_from a.toRm with
    | error e => exact .fail
    | ok rm =>
      simp only [this rm e]
      exact .left _ (.right _ (hits_disp _))
  · rw [hd]
    simp only
    split
    · exact .left _ (.right _ (hits_disp _))
    · simp only [reduceCtorEq, false_and, if_false]
      exact .left _ (.right _ (hits_disp _))

theorem hits_rm {l op k mm imm} {a : RmOperand V DestLabel} (h : l ∈ a.labels) :
    Hits l (encItems op k mm a.toRm imm) := by
  cases a with
  | reg r => simp [RmOperand.labels] at h
  | ind a => exact hits_enc h

theorem hits_xm {l op k mm imm} {a : XmOperand V DestLabel} (h : l ∈ a.labels) :
    Hits l (encItems op k mm a.toRm imm) := by
  cases a with
  | xmm r => simp [XmOperand.labels] at h
  | ind a => exact hits_enc h

theorem hits_ind {l op k mm imm} {a : IndAddr V DestLabel} (h : l ∈ (RmOperand.ind a).labels) :
    Hits l (encItems op k mm (RmOperand.ind a).toRm imm) := hits_enc h

theorem rm_not_reg {l} {a : RmOperand V DestLabel} (h : l ∈ a.labels) :
    a.toRm.is_rax = false ∧ a.toRm.is_reg = false := by
  cases a with
  | reg r => simp [RmOperand.labels] at h
  | ind a => simp [RmOperand.toRm, IndAddr.toRm, Rm.ind, Rm.is_rax, Rm.is_reg]

attribute [local irreducible] encItems

macro "hits" h:ident : tactic => `(tactic| first
  | exact Hits.fail
  | exact hits_enc $h | exact hits_rm $h | exact hits_xm $h
  | exact Hits.cons _ (hits_enc $h) | exact Hits.cons _ (hits_rm $h) | exact Hits.cons _ (hits_xm $h)
  | exact Hits.cons _ Hits.fail)

theorem hits_binary {size op dg op1 op2 its l} (h : It.binary_op size op dg op1 op2 = .ok its)
    (hl : l ∈ op1.labels ++ op2.labels) : Hits l its := by
  rw [List.mem_append] at hl
  cases size <;> simp only [It.binary_op] at h
  · cases op2 with
    | imm v =>
      have hl : l ∈ op1.labels := by simpa [RmiOperand.labels] using hl
      simp only [It.binary_opq, Except.ok.injEq] at h
      subst h; (repeat' split) <;> hits hl
    | reg r =>
      have hl : l ∈ op1.labels := by simpa [RmiOperand.labels] using hl
      simp only [It.binary_opq, Except.ok.injEq] at h
      subst h; hits hl
    | ind a =>
      cases op1 with
      | reg r =>
        have hl : l ∈ a.labels := by simpa [RmiOperand.labels, RmOperand.labels] using hl
        simp only [It.binary_opq, Except.ok.injEq] at h
        subst h; hits hl
      | ind b => simp [It.binary_opq] at h
  · cases op2 with
    | imm v =>
      have hl : l ∈ op1.labels := by simpa [RmiOperand.labels] using hl
      simp only [It.binary_opl, Except.ok.injEq] at h
      subst h; (repeat' split) <;> hits hl
    | reg r =>
      have hl : l ∈ op1.labels := by simpa [RmiOperand.labels] using hl
      simp only [It.binary_opl, Except.ok.injEq] at h
      subst h; hits hl
    | ind a =>
      cases op1 with
      | reg r =>
        have hl : l ∈ a.labels := by simpa [RmiOperand.labels, RmOperand.labels] using hl
        simp only [It.binary_opl, Except.ok.injEq] at h
        subst h; hits hl
      | ind b => simp [It.binary_opl] at h
  · cases op2 with
    | imm v =>
      have hl : l ∈ op1.labels := by simpa [RmiOperand.labels] using hl
      simp only [It.binary_opw, Except.ok.injEq] at h
      subst h; (repeat' split) <;> hits hl
    | reg r =>
      have hl : l ∈ op1.labels := by simpa [RmiOperand.labels] using hl
      simp only [It.binary_opw, Except.ok.injEq] at h
      subst h; hits hl
    | ind a =>
      cases op1 with
      | reg r =>
        have hl : l ∈ a.labels := by simpa [RmiOperand.labels, RmOperand.labels] using hl
        simp only [It.binary_opw, Except.ok.injEq] at h
        subst h; hits hl
      | ind b => simp [It.binary_opw] at h
  · cases op2 with
    | imm v =>
      have hl : l ∈ op1.labels := by simpa [RmiOperand.labels] using hl
      simp only [It.binary_opb, Except.ok.injEq, It.digit_imm_byte, (rm_not_reg hl).1, (rm_not_reg hl).2,
        Bool.false_eq_true, if_false] at h
      subst h; (repeat' split) <;> hits hl
    | reg r =>
      have hl : l ∈ op1.labels := by simpa [RmiOperand.labels] using hl
      simp only [It.binary_opb, Except.ok.injEq] at h
      subst h; hits hl
    | ind a =>
      cases op1 with
      | reg r =>
        have hl : l ∈ a.labels := by simpa [RmiOperand.labels, RmOperand.labels] using hl
        simp only [It.binary_opb, Except.ok.injEq] at h
        subst h; hits hl
      | ind b => simp [It.binary_opb] at h

theorem hits_shift {w dg op1 op2 its l} (h : It.shift_op w dg op1 op2 = .ok its) (hl : l ∈ op1.labels) :
    Hits l its := by
  cases w <;> cases op2 <;> simp only [It.shift_op, Except.ok.injEq, reduceCtorEq] at h <;> subst h <;>
    (repeat' split) <;> hits hl

theorem hits_count {w op op1 op2 its l} (h : It.count_op w op op1 op2 = .ok its) (hl : l ∈ op2.labels) :
    Hits l its := by
  cases w <;> simp only [It.count_op, Except.ok.injEq, reduceCtorEq] at h <;> subst h <;> hits hl

theorem items_hits {i its l} (h : items i = .ok its) (hl : i.mentions l) : Hits l its := by
  simp only [Inst.mentions] at hl
  cases i with
  | Add | Or | Adc | Sbb | And | Sub | Xor | Cmp => exact hits_binary h hl
  | Shl | Shr | Sal | Sar | Rol | Ror => exact hits_shift h hl
  | Lzcnt | Tzcnt | Popcnt => exact hits_count h hl
  | Label l' =>
    simp only [Inst.labels, List.mem_singleton] at hl
    simp only [items, Except.ok.injEq] at h; subst h hl
    exact ⟨_, by simp, .inr (.inl rfl)⟩
  | Jcc c d =>
    simp only [Inst.labels, List.mem_singleton] at hl
    simp only [items, Except.ok.injEq, It.d] at h; subst h hl
    exact .right _ ⟨.rel l 4, by simp, .inl ⟨_, rfl⟩⟩
  | Jmp d =>
    cases d <;> simp only [Inst.labels, Dest.labels, List.mem_singleton, List.not_mem_nil] at hl <;>
      simp only [items, Except.ok.injEq, It.d] at h <;> subst h
    · subst hl; exact .right _ ⟨.rel l 4, by simp, .inl ⟨_, rfl⟩⟩
    · hits hl
  | Call d =>
    cases d <;> simp only [Inst.labels, Dest.labels, List.mem_singleton, List.not_mem_nil] at hl <;>
      simp only [items, Except.ok.injEq, It.d] at h <;> subst h
    · subst hl; exact .cons _ ⟨.rel l 4, by simp, .inl ⟨_, rfl⟩⟩
    · hits hl
  | Pushq op =>
    cases op <;> simp [Inst.labels, RmOperand.labels] at hl
    simp only [items, It.push_pop, Except.ok.injEq] at h; subst h; hits hl
  | Popq op =>
    cases op <;> simp [Inst.labels, RmOperand.labels] at hl
    simp only [items, It.push_pop, Except.ok.injEq] at h; subst h; hits hl
  | Movq op1 op2 =>
    cases op1 <;> cases op2 <;>
      simp [Inst.labels, MovOperand.labels] at hl <;>
      simp only [items, It.movq, Except.ok.injEq, reduceCtorEq] at h <;>
      first
        | (subst h; hits hl)
        | (rename_i sz; cases sz <;> simp only [It.movq, Except.ok.injEq, reduceCtorEq] at h <;> subst h <;>
            split <;> hits hl)
  | Movl op1 op2 =>
    cases op1 <;> cases op2 <;>
      simp [Inst.labels, RmOperand.labels, RmiOperand.labels] at hl <;>
      simp only [items, It.movl, Except.ok.injEq, reduceCtorEq] at h <;> subst h <;>
      (repeat' split) <;> hits hl
  | Movw op1 op2 =>
    cases op1 <;> cases op2 <;>
      simp [Inst.labels, RmOperand.labels, RmiOperand.labels] at hl <;>
      simp only [items, It.movw, Except.ok.injEq, reduceCtorEq] at h <;> subst h <;>
      (repeat' split) <;> hits hl
  | Movb op1 op2 =>
    cases op1 <;> cases op2 <;>
      simp [Inst.labels, RmOperand.labels, RmiOperand.labels] at hl <;>
      simp only [items, It.movb, Except.ok.injEq, reduceCtorEq] at h <;> subst h <;>
      (repeat' split) <;> hits hl
  | Xchg sz op1 op2 =>
    cases sz <;> simp only [items, reduceCtorEq] at h
    cases op1 <;> cases op2 <;>
      simp [Inst.labels, RmOperand.labels] at hl <;>
      simp only [Except.ok.injEq, reduceCtorEq] at h <;> subst h <;> hits hl
  | Testq op1 op2 =>
    cases op1 <;> cases op2 <;>
      simp [Inst.labels, RmOperand.labels] at hl <;>
      simp only [items, Except.ok.injEq, reduceCtorEq] at h <;> subst h <;>
      (repeat' split) <;> hits hl
  | Testb op1 op2 =>
    cases op1 <;> cases op2 <;>
      simp [Inst.labels, RmOperand.labels] at hl <;>
      simp only [items, Except.ok.injEq, reduceCtorEq] at h <;> subst h <;>
      (repeat' split) <;> hits hl
  | Cmovcc sz c op1 op2 =>
    cases sz <;> simp only [items, Except.ok.injEq, reduceCtorEq] at h <;> subst h <;> hits hl
  | Imul op1 op2 =>
    cases op1 <;> cases op2 <;>
      simp [Inst.labels, RmiOperand.labels] at hl <;>
      simp only [items, Except.ok.injEq, reduceCtorEq] at h <;> subst h <;> hits hl
  | Movsd op1 op2 =>
    cases op1 <;> cases op2 <;>
      simp [Inst.labels, XmOperand.labels] at hl <;>
      simp only [items, Except.ok.injEq, reduceCtorEq] at h <;> subst h <;> hits hl
  | Lea op1 op2 =>
    cases op1 <;> cases op2 <;>
      simp [Inst.labels, RmOperand.labels] at hl <;>
      simp only [items, Except.ok.injEq, reduceCtorEq] at h <;> subst h <;> hits hl
  | Roundpd op1 op2 op3 =>
    simp only [items, Except.ok.injEq] at h
    subst h
    exact Hits.cons _ (Hits.left _ (hits_xm hl))
  | _ =>
    simp only [Inst.labels, List.not_mem_nil] at hl <;>
    simp only [items, Except.ok.injEq, It.sd] at h <;> subst h <;> hits hl

theorem hits_not_ok {s : JitMemory} {l : Nat} {its : List Item} (hl : s.labels.length ≤ l)
    (h : Hits l its) (s') : runItems its s ≠ .ok () s' := by
  induction its generalizing s with
  | nil => obtain ⟨_, hm, _⟩ := h; simp at hm
  | cons it its ih =>
    intro hr
    simp only [runItems] at hr
    obtain ⟨_, s1, h1, h2⟩ := bind_ok hr
    have hlen : s1.labels.length = s.labels.length := by
      have := (Keeps.item (B := fun _ => True) it (fun _ _ => trivial) s).len
      rw [h1] at this; exact this
    obtain ⟨x, hm, hx⟩ := h
    rcases List.mem_cons.1 hm with rfl | hm
    · rcases hx with ⟨off, rfl⟩ | rfl | ⟨e, rfl⟩
      · simp only [Item.run] at h1
        obtain ⟨_, s2, h3, _⟩ := bind_ok h1
        rw [show save_reloc l off s = .panic .indexOutOfBounds s from modifyLabel_none hl] at h3
        cases h3
      · rw [show (Item.bind l).run s = .panic .indexOutOfBounds s from modifyLabel_none hl] at h1
        cases h1
      · cases h1
    · exact ih (by rw [hlen]; exact hl) ⟨x, hm, hx⟩ h2

theorem unknown_inst {s : JitMemory} {l : Nat} {i : Inst V DestLabel} (hl : s.labels.length ≤ l)
    (hi : i.mentions l) {m : M Unit} (hm : compile i = .ok m) (s') : m s ≠ .ok () s' := by
  rw [compile_eq] at hm
  cases e : items i with
  | error er => rw [e] at hm; cases hm
  | ok its => rw [e] at hm; cases hm; exact hits_not_ok hl (items_hits e hi) s'

end Monoasm
