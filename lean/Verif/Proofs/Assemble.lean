import Verif.Proofs.Accept
import Verif.Proofs.Labels
/-
  Valid statements are assembled whenever there is room; statements with an immediate out of range
  panic.
-/

set_option linter.unusedSimpArgs false

namespace Monoasm
open Spec JitMemory

theorem item_total {i : Item} {s : JitMemory} (hf : ∀ e, i ≠ .fail e)
    (hl : ∀ l off, i = .rel l off → l < s.labels.length) (hb : ∀ l, i = .bind l → l < s.labels.length)
    (hr : (s.pages s.page).counter + i.len ≤ PAGE_SIZE) : ∃ s', i.run s = .ok () s' := by
  cases i with
  | i8 v =>
    simp only [Item.run, JitMemory.emitb, cur_bind, emitb_run, emitRes]
    rw [if_pos (by simpa [Item.len] using hr)]; exact ⟨_, rfl⟩
  | i16 v =>
    simp only [Item.run, JitMemory.emitw, cur_bind, emitw_run, emitRes]
    rw [if_pos (by simpa [Item.len] using hr)]; exact ⟨_, rfl⟩
  | i32 v =>
    simp only [Item.run, JitMemory.emitl, cur_bind, emitl_run, emitRes]
    rw [if_pos (by simpa [Item.len] using hr)]; exact ⟨_, rfl⟩
  | i64 v =>
    simp only [Item.run, JitMemory.emitq, cur_bind]
    rw [emitq_run _ _ _ (by simpa [Item.len] using hr)]; exact ⟨_, rfl⟩
  | rel l off =>
    have := hl l off rfl
    simp only [Item.run]
    have h1 : save_reloc l off s = .ok () { s with labels := s.labels.modify l fun i => { i with target := i.target ++ [.rel s.page off (s.pages s.page).counter] } } := by
      simp only [JitMemory.save_reloc, cur_bind]
      have e : MemPage.counterOf s.page s = .ok (s.pages s.page).counter s := rfl
      rw [ok_bind e]
      simp [modifyLabel, this]
    rw [ok_bind h1]
    simp only [JitMemory.emitl, cur_bind, emitl_run, emitRes]
    rw [if_pos (by simpa [Item.len] using hr)]; exact ⟨_, rfl⟩
  | bind l =>
    have := hb l rfl
    simp only [Item.run, JitMemory.bind_label, cur_bind]
    have e : MemPage.counterOf s.page s = .ok (s.pages s.page).counter s := rfl
    rw [ok_bind e]
    simp only [modifyLabel, this, if_true]
    exact ⟨_, rfl⟩
  | fail e => exact absurd rfl (hf e)

theorem runItems_total {its : List Item} {s : JitMemory} (hf : NoFail its)
    (hl : ∀ l off, Item.rel l off ∈ its → l < s.labels.length)
    (hb : ∀ l, Item.bind l ∈ its → l < s.labels.length)
    (hr : (s.pages s.page).counter + lenOf its ≤ PAGE_SIZE) : ∃ s', runItems its s = .ok () s' := by
  induction its generalizing s with
  | nil => exact ⟨s, rfl⟩
  | cons i is ih =>
    simp only [lenOf_cons] at hr
    obtain ⟨s1, h1⟩ := item_total (i := i) (s := s) (fun e h => hf e (by simp [h]))
      (fun l off h => hl l off (by simp [h])) (fun l h => hb l (by simp [h])) (by omega)
    have r := Item.run_ok h1
    obtain ⟨s', h2⟩ := ih (s := s1) (fun e h => hf e (by simp [h]))
      (fun l off h => by rw [r.len]; exact hl l off (by simp [h]))
      (fun l h => by rw [r.len]; exact hb l (by simp [h]))
      (by rw [r.page, r.pages]; simp; omega)
    exact ⟨s', by rw [runItems_cons, ok_bind h1, h2]⟩

/-! ### Whether a statement denotes an instruction does not depend on where labels are -/

theorem addr_indep (rel rel' : Nat → BitVec 64) (a : IndAddr Val Nat) :
    (addr rel a = none ∧ addr rel' a = none) ∨ ∃ A A', addr rel a = some A ∧ addr rel' a = some A' := by
  obtain ⟨base, scale, disp⟩ := a
  cases scale with
  | none =>
    simp only [addr]
    split
    · right; exact ⟨_, _, rfl, rfl⟩
    · cases gpr base <;> simp
  | s1 sc idx =>
    simp only [addr]
    cases gpr base <;> cases gpr idx <;> simp
    rename_i x
    by_cases h1 : x = 4#4 <;> by_cases h2 : sc < 4#8 <;> simp [h1, h2]
    exact BitVec.not_lt.1 h2

/-- Operands in the same class. -/
inductive Same : Option X86.Opd → Option X86.Opd → Prop where
  | none : Same none none
  | gpr (r) : Same (some (.gpr r)) (some (.gpr r))
  | xmm (r) : Same (some (.xmm r)) (some (.xmm r))
  | imm (r) : Same (some (.imm r)) (some (.imm r))
  | mem (a b) : Same (some (.mem a)) (some (.mem b))

theorem same_ind (rel rel' a) : Same (do return .mem (← addr rel a)) (do return .mem (← addr rel' a)) := by
  rcases addr_indep rel rel' a with ⟨h1, h2⟩ | ⟨A, A', h1, h2⟩ <;> simp only [h1, h2]
  · exact .none
  · exact .mem ..

theorem same_rm (rel rel' o) : Same (rm rel o) (rm rel' o) := by
  cases o with
  | reg r => simp only [rm]; cases gpr r; exact .none; exact .gpr _
  | ind a => exact same_ind rel rel' a
theorem same_rmi (rel rel' o) : Same (rmi rel o) (rmi rel' o) := by
  cases o with
  | imm i => exact .imm _
  | reg r => simp only [rmi]; cases gpr r; exact .none; exact .gpr _
  | ind a => exact same_ind rel rel' a
theorem same_xm (rel rel' o) : Same (xm rel o) (xm rel' o) := by
  cases o with
  | xmm r => simp only [xm]; cases xmm r; exact .none; exact .xmm _
  | ind a => exact same_ind rel rel' a

macro "same " f:ident r:ident r':ident x:ident h:term : tactic => `(tactic|
  (have hs := $h $r $r' $x; revert hs; generalize $f $r $x = o1; generalize $f $r' $x = o2; intro hs; cases hs))

theorem meaning_indep (rel rel' : Nat → BitVec 64) (i : Inst Val Nat) :
    (meaning rel i).isSome = (meaning rel' i).isSome := by
  cases i <;> simp only [meaning]
  case Movq a b =>
    cases a <;> cases b <;> simp only [Spec.movq]
    case reg.ind r a => rcases addr_indep rel rel' a with ⟨h1, h2⟩ | ⟨A, A', h1, h2⟩ <;> cases gpr r <;> simp [h1, h2]
    case xmm.ind r a => rcases addr_indep rel rel' a with ⟨h1, h2⟩ | ⟨A, A', h1, h2⟩ <;> cases xmm r <;> simp [h1, h2]
    case ind.imm a i _ => rcases addr_indep rel rel' a with ⟨h1, h2⟩ | ⟨A, A', h1, h2⟩ <;> simp [h1, h2]
    case ind.reg a r => rcases addr_indep rel rel' a with ⟨h1, h2⟩ | ⟨A, A', h1, h2⟩ <;> cases gpr r <;> simp [h1, h2]
    case ind.xmm a r => rcases addr_indep rel rel' a with ⟨h1, h2⟩ | ⟨A, A', h1, h2⟩ <;> cases xmm r <;> simp [h1, h2]
  case Movl a b | Movw a b | Movb a b =>
    simp only [Spec.mov]
    (same Spec.rm rel rel' a same_rm) <;> (same Spec.rmi rel rel' b same_rmi) <;> simp [notBothMem]
  case Add sz a b | Sub sz a b | Adc sz a b | Sbb sz a b | And sz a b | Or sz a b | Xor sz a b | Cmp sz a b =>
    simp only [Spec.alu]
    (same Spec.rm rel rel' a same_rm) <;> (same Spec.rmi rel rel' b same_rmi) <;> simp [notBothMem]
  case Shl sz a b | Shr sz a b | Sal sz a b | Sar sz a b | Rol sz a b | Ror sz a b =>
    simp only [Spec.shift]
    cases ri b <;> (same Spec.rm rel rel' a same_rm) <;> simp
    all_goals (rename_i o _ _; cases o <;> simp <;> split <;> simp)
  case Xchg sz a b =>
    simp only [Spec.xchg]
    (same Spec.rm rel rel' a same_rm) <;> (same Spec.rm rel rel' b same_rm) <;> simp
  case Negq a | Idiv a | Idivl a | Div a | Divl a =>
    simp only [un]; (same Spec.rm rel rel' a same_rm) <;> simp
  case Movsxl r a | Movzxw r a | Movsxw r a | Movzxb r a | Movsxb r a =>
    simp only [ext]; cases gpr r <;> (same Spec.rm rel rel' a same_rm) <;> simp
  case Imul a b =>
    cases a with
    | reg r => cases h : gpr r <;> (same Spec.rmi rel rel' b same_rmi) <;> simp [h]
    | _ => rfl
  case Lea a b =>
    cases a with
    | reg r => cases b with
      | ind a => rcases addr_indep rel rel' a with ⟨h1, h2⟩ | ⟨A, A', h1, h2⟩ <;> cases h : gpr r <;> simp [h1, h2, h]
      | reg _ => rfl
    | ind _ => rfl
  case Testq a b | Testb a b => cases ri b <;> (same Spec.rm rel rel' a same_rm) <;> simp
  case Setcc c a => (same Spec.rm rel rel' a same_rm) <;> simp
  case Cmovcc sz c r a => split; rfl; cases gpr r <;> (same Spec.rm rel rel' a same_rm) <;> simp
  case Lzcnt sz r a | Tzcnt sz r a | Popcnt sz r a => split; rfl; cases gpr r <;> (same Spec.rm rel rel' a same_rm) <;> simp
  case Movsd a b => (same Spec.xm rel rel' a same_xm) <;> (same Spec.xm rel rel' b same_xm) <;> simp [notBothMem]
  case Addsd x b | Subsd x b | Mulsd x b | Divsd x b | Minsd x b | Maxsd x b | Xorps x b | UComIsd x b | Andpd x b
      | Xorpd x b | Roundpd x b _ | Sqrtpd x b | Sqrtsd x b =>
    simp only [sse]; cases xmm x <;> (same Spec.xm rel rel' b same_xm) <;> simp
  case Cvtsi2sdq x b => cases xmm x <;> (same Spec.rm rel rel' b same_rm) <;> simp
  case Cvttsd2siq x b => cases gpr x <;> (same Spec.xm rel rel' b same_xm) <;> simp
  case Pushq a | Popq a => (same Spec.rm rel rel' a same_rm) <;> simp
  case Jmp d | Call d =>
    cases d with
    | ind a => rcases addr_indep rel rel' a with ⟨h1, h2⟩ | ⟨A, A', h1, h2⟩ <;> simp [h1, h2]
    | _ => rfl
  all_goals rfl

theorem actual_of_meaning {rel i I} (h : meaning rel i = some I) : ∃ J, actual rel i = some J := by
  cases i
  case Cvttsd2siq r b =>
    simp only [meaning] at h
    simp only [actual]
    cases h1 : gpr r <;> cases h2 : xm rel b <;> simp [h1, h2] at h ⊢
  all_goals exact ⟨I, h⟩

/-- Items of a statement that denotes an instruction do not fail, except for the immediate. -/
theorem valid_noFail {rel i I its} (hM : meaning rel i = some I) (hi : items i = .ok its)
    (hN : Item.fail .immOutOfRange ∉ its) : NoFail its := by
  have := meaning_indep rel (fun _ => 0) i
  rw [hM] at this
  obtain ⟨I', h'⟩ := Option.isSome_iff_exists.1 this.symm
  obtain ⟨J, hJ⟩ := actual_of_meaning h'
  exact (decode_items (ψ := fun _ => 0) (fun l => by simp) i hJ hi hN).noFail

theorem accepted_items {i} : Accepted i ↔ ∃ its, items i = .ok its := by
  simp only [Accepted, compile_eq]
  cases items i <;> simp [Except.map]

theorem runs_of_items {i its s s'} (hi : items i = .ok its) (h : runItems its s = .ok () s') : Runs i s s' :=
  ⟨_, by rw [compile_eq, hi]; rfl, h⟩

theorem panics_of_items {i its s e s'} (hi : items i = .ok its) (h : runItems its s = .panic e s') : Panics i s e s' :=
  ⟨_, by rw [compile_eq, hi]; rfl, h⟩

/-- **Totality.** -/
theorem assembles {rel i I s} (ha : Accepted i) (hM : meaning rel i = some I) (hv : ImmOk i)
    (hk : Known s i) (hr : Room s) : ∃ s', Runs i s s' := by
  obtain ⟨its, hi⟩ := accepted_items.1 ha
  have hN := valid_noFail hM hi (immOk hi hv)
  obtain ⟨s', h⟩ := runItems_total (s := s) hN (fun l off h => hk l (items_mention hi h))
    (fun l h => by
      have := items_bind hi h
      subst this
      exact hk l (by simp [Inst.mentions, Inst.labels]))
    (by have := items_len hi; simp only [Room, cursor] at hr; omega)
  exact ⟨s', runs_of_items hi h⟩

/-- **Immediates out of range panic.** Nothing is emitted, except for the prefix 0x66. -/
theorem imm_panics {i n v} {s : JitMemory} (ha : Accepted i) (hi : Spec.imm i = some (n, v)) (hv : ¬ fits n v)
    (hr : Room s) :
    Panics i s .immOutOfRange s ∨ Panics i s .immOutOfRange (emitted s s.page [0x66]) := by
  obtain ⟨its, h⟩ := accepted_items.1 ha
  have hf := immFail h hi hv
  revert hf
  generalize aluWord i = w
  intro hf
  cases hf with
  | nil => left; exact panics_of_items h rfl
  | word =>
    right
    refine panics_of_items h ?_
    have h1 : (Item.i8 0x66).run s = .ok () (emitted s s.page [0x66]) := by
      simp only [Item.run, JitMemory.emitb, cur_bind, emitb_run, emitRes]
      rw [if_pos]
      simp only [Room, cursor] at hr
      simp; omega
    rw [runItems_cons, ok_bind h1]; rfl

/-- An immediate that was assembled was in range. -/
theorem runs_immOk {i s s'} (h : Runs i s s') : ImmOk i := by
  intro n v hi
  apply Decidable.byContradiction
  intro hv
  obtain ⟨its, h1, h2⟩ := runs_items h
  have hf := immFail h1 hi hv
  revert hf
  generalize aluWord i = w
  intro hf
  cases hf with
  | nil => exact h2.noFail .immOutOfRange (by simp)
  | word => exact h2.noFail .immOutOfRange (by simp)

end Monoasm
