import Verif.Spec.Accept
import Verif.Proofs.Link
/-
  When a statement is assembled, when it panics, and how long its code can be.
-/

set_option linter.unusedSimpArgs false

namespace Monoasm
open Spec JitMemory

/-! ### Immediates -/

theorem i8_none_iff (v) : i8TryFrom v = none ↔ ¬ fits 8 v := by
  simp only [i8TryFrom, fits]
  split <;> simp <;> omega
theorem i16_none_iff (v) : i16TryFrom v = none ↔ ¬ fits 16 v := by
  simp only [i16TryFrom, fits]
  split <;> simp <;> omega
theorem i32_none_iff (v) : i32TryFrom v = none ↔ ¬ fits 32 v := by
  simp only [i32TryFrom, fits]
  split <;> simp <;> omega
theorem i8_none_of_16 {v} (h : i16TryFrom v = none) : i8TryFrom v = none := by
  rw [i16_none_iff] at h; rw [i8_none_iff]; simp only [fits] at *; omega
theorem i8_none_of_32 {v} (h : i32TryFrom v = none) : i8TryFrom v = none := by
  rw [i32_none_iff] at h; rw [i8_none_iff]; simp only [fits] at *; omega

theorem not_fits_one {v} (h : ¬ fits 8 v) : v ≠ 1#64 := by rintro rfl; exact h (by decide)

/-- Statements that panic because of the immediate. -/
inductive ImmFail : Bool → List Item → Prop where
  | nil : ImmFail false [.fail .immOutOfRange]
  | word : ImmFail true [.i8 0x66, .fail .immOutOfRange]

theorem immFail_binary {size op dg op1 v its} (h : It.binary_op size op dg op1 (.imm v) = .ok its)
    (hv : ¬ fits (immWidth size) v) : ImmFail (size = .WORD) its := by
  cases size <;> simp only [immWidth] at hv
  · rw [← i32_none_iff] at hv
    cases op1 <;> simp only [It.binary_op, It.binary_opq, hv, i8_none_of_32 hv, Except.ok.injEq] at h <;> subst h <;> exact .nil
  · rw [← i32_none_iff] at hv
    cases op1 <;> simp only [It.binary_op, It.binary_opl, hv, i8_none_of_32 hv, Except.ok.injEq] at h <;> subst h <;> exact .nil
  · rw [← i16_none_iff] at hv
    cases op1 <;> simp only [It.binary_op, It.binary_opw, hv, i8_none_of_16 hv, Except.ok.injEq] at h <;> subst h <;> exact .word
  · rw [← i8_none_iff] at hv
    cases op1 <;> simp only [It.binary_op, It.binary_opb, hv, Except.ok.injEq] at h <;> subst h <;> exact .nil

theorem immFail_shift {size dg op1 v its} (h : It.shift_op size dg op1 (.imm v) = .ok its)
    (hv : ¬ fits 8 v) : ImmFail false its := by
  have h1 := not_fits_one hv
  rw [← i8_none_iff] at hv
  have h1' : ¬ v = 1 := h1
  cases size <;> simp only [It.shift_op, hv, h1', if_false, Except.ok.injEq, reduceCtorEq] at h <;> subst h <;> exact .nil

theorem immFail {i its n v} (h : items i = .ok its) (hi : Spec.imm i = some (n, v)) (hv : ¬ fits n v) :
    ImmFail (aluWord i) its := by
  cases i
  all_goals (try (simp only [Spec.imm, reduceCtorEq] at hi; done))
  case Add sz a b | Sub sz a b | Adc sz a b | Sbb sz a b | And sz a b | Or sz a b | Xor sz a b | Cmp sz a b =>
    cases b <;> simp [Spec.imm, rmiImm] at hi
    obtain ⟨rfl, rfl⟩ := hi
    exact immFail_binary h hv
  case Shl sz a b | Shr sz a b | Sal sz a b | Sar sz a b | Rol sz a b | Ror sz a b =>
    cases b <;> simp [Spec.imm, riImm] at hi
    obtain ⟨rfl, rfl⟩ := hi
    exact immFail_shift h hv
  case Movq a b =>
    cases a <;> cases b <;> simp [Spec.imm] at hi
    obtain ⟨rfl, rfl⟩ := hi
    rw [← i32_none_iff] at hv
    rename_i sz
    cases sz <;> simp only [items, It.movq, hv, Except.ok.injEq, reduceCtorEq] at h
    subst h; exact .nil
  case Movl a b =>
    cases b <;> simp [Spec.imm, rmiImm] at hi
    obtain ⟨rfl, rfl⟩ := hi
    rw [← i32_none_iff] at hv
    cases a <;> simp only [items, It.movl, hv, Except.ok.injEq] at h <;> subst h <;> exact .nil
  case Movw a b =>
    cases b <;> simp [Spec.imm, rmiImm] at hi
    obtain ⟨rfl, rfl⟩ := hi
    rw [← i16_none_iff] at hv
    cases a <;> simp only [items, It.movw, hv, Except.ok.injEq] at h <;> subst h <;> exact .nil
  case Movb a b =>
    cases b <;> simp [Spec.imm, rmiImm] at hi
    obtain ⟨rfl, rfl⟩ := hi
    rw [← i8_none_iff] at hv
    cases a <;> simp only [items, It.movb, hv, Except.ok.injEq] at h <;> subst h <;> exact .nil
  case Testq a b =>
    cases b <;> simp [Spec.imm, riImm] at hi
    obtain ⟨rfl, rfl⟩ := hi
    rw [← i32_none_iff] at hv
    cases a <;> simp only [items, hv, Except.ok.injEq] at h <;> subst h <;> exact .nil
  case Testb a b =>
    cases b <;> simp [Spec.imm, riImm] at hi
    obtain ⟨rfl, rfl⟩ := hi
    rw [← i8_none_iff] at hv
    cases a <;> simp only [items, hv, Except.ok.injEq] at h <;> subst h <;> exact .nil
  case Call d =>
    cases d <;> simp [Spec.imm] at hi
    obtain ⟨rfl, rfl⟩ := hi
    rw [← i32_none_iff] at hv
    simp only [items, hv, Except.ok.injEq] at h; subst h; exact .nil

/-! The encoders themselves never raise `immOutOfRange`. -/

theorem rex_noImm (k a b c m) : Item.fail .immOutOfRange ∉ rexItems k a b c m := by
  cases k <;> simp only [rexItems] <;> (repeat' split) <;> simp
theorem i8s_noImm (bs : List Byte) : Item.fail .immOutOfRange ∉ bs.map .i8 := by simp
theorem imm_noImm (i) : Item.fail .immOutOfRange ∉ immItems i := by cases i <;> simp [immItems]
theorem disp_noImm (i d) : Item.fail .immOutOfRange ∉ dispItems i d := by cases d <;> simp [dispItems]
theorem sib_noImm (a b c) : Item.fail .immOutOfRange ≠ sibItem a b c := by
  simp only [sibItem]; split <;> simp
theorem scale_noImm (a b) : Item.fail .immOutOfRange ∉ scaleItems a b := by
  cases a <;> simp [scaleItems, sib_noImm]
theorem o_noImm (k op r) : Item.fail .immOutOfRange ∉ It.o k op r := by
  simp only [It.o]; split <;> simp [rex_noImm]
theorem enc_noImm (op k mm rm imm) : Item.fail .immOutOfRange ∉ encItems op k mm rm imm := by
  simp only [encItems]
  split
  · simp
  split
  · split
    · rename_i e h
      simp only [Rm.rip_ind_from] at h
      split at h <;> cases h <;> simp
    · simp [rex_noImm, imm_noImm, disp_noImm]
  split
  · simp [rex_noImm, imm_noImm, disp_noImm]
  · split
    · split <;> simp [rex_noImm, imm_noImm, disp_noImm, sib_noImm]
    · simp [rex_noImm, imm_noImm, disp_noImm, scale_noImm]

theorem immOk_binary {size op dg op1 op2 its} (h : It.binary_op size op dg op1 op2 = .ok its)
    (hv : ∀ n v, rmiImm (immWidth size) op2 = some (n, v) → fits n v) :
    Item.fail .immOutOfRange ∉ its := by
  cases op2 with
  | imm v =>
    have hv := hv _ _ rfl
    cases size <;> simp only [immWidth] at hv
    · have h32 : i32TryFrom v ≠ none := by rw [Ne, i32_none_iff]; simpa using hv
      obtain ⟨w, hw⟩ := Option.ne_none_iff_exists'.1 h32
      cases op1 <;> cases h8 : i8TryFrom v <;>
        simp only [It.binary_op, It.binary_opq, hw, h8, Except.ok.injEq] at h <;> subst h <;> exact enc_noImm _ _ _ _ _
    · have h32 : i32TryFrom v ≠ none := by rw [Ne, i32_none_iff]; simpa using hv
      obtain ⟨w, hw⟩ := Option.ne_none_iff_exists'.1 h32
      cases op1 <;> cases h8 : i8TryFrom v <;>
        simp only [It.binary_op, It.binary_opl, hw, h8, Except.ok.injEq] at h <;> subst h <;> exact enc_noImm _ _ _ _ _
    · have h16 : i16TryFrom v ≠ none := by rw [Ne, i16_none_iff]; simpa using hv
      obtain ⟨w, hw⟩ := Option.ne_none_iff_exists'.1 h16
      cases op1 <;> cases h8 : i8TryFrom v <;>
        simp only [It.binary_op, It.binary_opw, hw, h8, Except.ok.injEq] at h <;> subst h <;>
        simp [It.digit_imm, enc_noImm]
    · have h8 : i8TryFrom v ≠ none := by rw [Ne, i8_none_iff]; simpa using hv
      obtain ⟨w, hw⟩ := Option.ne_none_iff_exists'.1 h8
      cases op1 <;> simp only [It.binary_op, It.binary_opb, hw, Except.ok.injEq] at h <;> subst h <;>
        simp only [It.digit_imm_byte] <;> (repeat' split) <;> simp [enc_noImm, imm_noImm]
  | reg r =>
    cases size <;> cases op1 <;>
      simp only [It.binary_op, It.binary_opq, It.binary_opl, It.binary_opw, It.binary_opb, Except.ok.injEq] at h <;>
      subst h <;> simp [It.rexw_mr, It.mr, It.mr_byte, enc_noImm]
  | ind a =>
    cases size <;> cases op1 <;>
      simp only [It.binary_op, It.binary_opq, It.binary_opl, It.binary_opw, It.binary_opb, Except.ok.injEq, reduceCtorEq] at h <;>
      subst h <;> simp [It.rexw_mr, It.mr, It.mr_byte, enc_noImm]

theorem immOk_shift {size dg op1 op2 its} (h : It.shift_op size dg op1 op2 = .ok its)
    (hv : ∀ n v, riImm 8 op2 = some (n, v) → fits n v) :
    Item.fail .immOutOfRange ∉ its := by
  cases op2 with
  | imm v =>
    have hv := hv _ _ rfl
    have h8 : i8TryFrom v ≠ none := by rw [Ne, i8_none_iff]; simpa using hv
    obtain ⟨w, hw⟩ := Option.ne_none_iff_exists'.1 h8
    cases size <;> simp only [It.shift_op, hw, Except.ok.injEq, reduceCtorEq] at h <;> subst h <;>
      split <;> simp [It.rexw_digit, It.digit, It.digit_imm, enc_noImm]
  | reg r =>
    cases size <;> simp only [It.shift_op, Except.ok.injEq, reduceCtorEq] at h <;> subst h <;>
      split <;> simp [It.rexw_digit, It.digit, It.digit_imm, enc_noImm]

macro "noimm" : tactic => `(tactic|
  simp [It.rexw_mr, It.mr, It.mr_byte, It.mi, It.rexw_mi, It.mi_byte, It.m_byte, It.digit, It.digit_imm,
    It.rexw_digit, It.d, It.sd, enc_noImm, o_noImm])

theorem immOk {i its} (h : items i = .ok its) (hi : ImmOk i) : Item.fail .immOutOfRange ∉ its := by
  cases i
  case Add | Sub | Adc | Sbb | And | Or | Xor | Cmp => exact immOk_binary h hi
  case Shl | Shr | Sal | Sar | Rol | Ror => exact immOk_shift h hi
  case Movq a b =>
    cases a <;> cases b <;> simp only [items, It.movq, Except.ok.injEq, reduceCtorEq] at h <;>
      (try (first | (subst h; noimm; done) | (split at h <;> simp at h; subst h; noimm; done)))
    rename_i v sz
    have hv := hi _ _ rfl
    have h8 : i32TryFrom v ≠ none := by rw [Ne, i32_none_iff]; simpa using hv
    obtain ⟨w, hw⟩ := Option.ne_none_iff_exists'.1 h8
    cases sz <;> simp only [It.movq, hw, Except.ok.injEq, reduceCtorEq] at h
    subst h; noimm
  case Movl a b =>
    cases b with
    | imm v =>
      have hv := hi _ _ rfl
      have h8 : i32TryFrom v ≠ none := by rw [Ne, i32_none_iff]; simpa using hv
      obtain ⟨w, hw⟩ := Option.ne_none_iff_exists'.1 h8
      cases a <;> simp only [items, It.movl, hw, Except.ok.injEq, reduceCtorEq] at h <;> subst h <;> noimm
    | _ => cases a <;> simp only [items, It.movl, Except.ok.injEq, reduceCtorEq] at h <;> subst h <;> noimm
  case Movw a b =>
    cases b with
    | imm v =>
      have hv := hi _ _ rfl
      have h8 : i16TryFrom v ≠ none := by rw [Ne, i16_none_iff]; simpa using hv
      obtain ⟨w, hw⟩ := Option.ne_none_iff_exists'.1 h8
      cases a <;> simp only [items, It.movw, hw, Except.ok.injEq, reduceCtorEq] at h <;> subst h <;> noimm
    | _ => cases a <;> simp only [items, It.movw, Except.ok.injEq, reduceCtorEq] at h <;> subst h <;> noimm
  case Movb a b =>
    cases b with
    | imm v =>
      have hv := hi _ _ rfl
      have h8 : i8TryFrom v ≠ none := by rw [Ne, i8_none_iff]; simpa using hv
      obtain ⟨w, hw⟩ := Option.ne_none_iff_exists'.1 h8
      cases a <;> simp only [items, It.movb, hw, Except.ok.injEq, reduceCtorEq] at h <;> subst h <;> noimm
    | _ => cases a <;> simp only [items, It.movb, Except.ok.injEq, reduceCtorEq] at h <;> subst h <;> noimm
  case Testq a b =>
    cases b with
    | imm v =>
      have hv := hi _ _ rfl
      have h8 : i32TryFrom v ≠ none := by rw [Ne, i32_none_iff]; simpa using hv
      obtain ⟨w, hw⟩ := Option.ne_none_iff_exists'.1 h8
      cases a <;> simp only [items, hw, Except.ok.injEq, reduceCtorEq] at h <;> subst h <;> (try split) <;> noimm
    | _ => cases a <;> simp only [items, Except.ok.injEq, reduceCtorEq] at h <;> subst h <;> noimm
  case Testb a b =>
    cases b with
    | imm v =>
      have hv := hi _ _ rfl
      have h8 : i8TryFrom v ≠ none := by rw [Ne, i8_none_iff]; simpa using hv
      obtain ⟨w, hw⟩ := Option.ne_none_iff_exists'.1 h8
      cases a <;> simp only [items, hw, Except.ok.injEq, reduceCtorEq] at h <;> subst h <;> (try split) <;> noimm
    | _ => cases a <;> simp only [items, Except.ok.injEq, reduceCtorEq] at h <;> subst h <;> noimm
  case Call d =>
    cases d with
    | disp v =>
      have hv := hi _ _ rfl
      have h8 : i32TryFrom v ≠ none := by rw [Ne, i32_none_iff]; simpa using hv
      obtain ⟨w, hw⟩ := Option.ne_none_iff_exists'.1 h8
      simp only [items, hw, Except.ok.injEq, reduceCtorEq] at h; subst h; noimm
    | _ => simp only [items, Except.ok.injEq, reduceCtorEq] at h; subst h; noimm
  case Jmp d => cases d <;> simp only [items, Except.ok.injEq, reduceCtorEq] at h <;> subst h <;> noimm
  case Xchg sz a b =>
    cases sz <;> cases a <;> cases b <;> simp only [items, Except.ok.injEq, reduceCtorEq] at h <;> subst h <;>
      (repeat' split) <;> noimm
  case Imul a b => cases a <;> cases b <;> simp only [items, Except.ok.injEq, reduceCtorEq] at h <;> subst h <;> noimm
  case Movsd a b => cases a <;> cases b <;> simp only [items, Except.ok.injEq, reduceCtorEq] at h <;> subst h <;> noimm
  case Lea a b => cases a <;> cases b <;> simp only [items, Except.ok.injEq, reduceCtorEq] at h <;> subst h <;> noimm
  case Cmovcc sz _ _ _ => cases sz <;> simp only [items, Except.ok.injEq, reduceCtorEq] at h <;> subst h <;> noimm
  case Lzcnt sz _ _ | Tzcnt sz _ _ | Popcnt sz _ _ =>
    cases sz <;> simp only [items, It.count_op, Except.ok.injEq, reduceCtorEq] at h <;> subst h <;> noimm
  case Pushq op | Popq op =>
    cases op <;> simp only [items, It.push_pop, Except.ok.injEq, reduceCtorEq] at h <;> subst h <;> noimm
  all_goals
    simp only [items, Except.ok.injEq] at h; subst h; noimm

/-! ### Length -/

theorem rex_len (k a b c m) : lenOf (rexItems k a b c m) ≤ 1 := by
  cases k <;> simp only [rexItems] <;> (repeat' split) <;> simp [Item.len]
theorem sib_len (a b c) : (sibItem a b c).len ≤ 1 := by simp only [sibItem]; split <;> simp [Item.len]
theorem disp_len (i d) : lenOf (dispItems i d) ≤ 4 := by cases d <;> simp [dispItems, Item.len]
theorem i8_len (v) : (Item.i8 v).len = 1 := rfl
theorem i8s_len (bs : List Byte) : lenOf (bs.map .i8) = bs.length := by
  induction bs with
  | nil => rfl
  | cons b bs ih => simp [Item.len, ih]; omega
theorem o_len (k op r) : lenOf (It.o k op r) ≤ 2 := by
  have := rex_len k ⟨0⟩ r ⟨0⟩ .reg
  simp only [It.o]
  split <;> simp [Item.len] <;> omega

theorem enc_len (op k mm rm imm) :
    lenOf (encItems op k mm rm imm) ≤ op.length + lenOf (immItems imm) + 7 := by
  have hr := rex_len k
  simp only [encItems]
  split
  · simp [Item.len]
  split
  · split
    · simp [Item.len]
    · rename_i rm' _
      have h1 := hr (modrmReg mm) rm'.base ⟨0⟩ rm'.mode
      have h2 := disp_len imm rm'.mode.disp
      simp only [lenOf_append, i8s_len, lenOf_cons, lenOf_nil, i8_len]; omega
  split
  · have h1 := hr (modrmReg mm) rm.base ⟨0⟩ .reg
    simp only [lenOf_append, i8s_len, lenOf_cons, lenOf_nil, i8_len]; omega
  · rename_i scale disp _
    split
    · split
      · rename_i sc index _
        have h1 := hr (modrmReg mm) rm.base ⟨4⟩ (.ind .none disp)
        have h2 := disp_len imm disp
        have h3 := sib_len 0 ⟨4⟩ rm.base
        simp only [lenOf_append, i8s_len, lenOf_cons, lenOf_nil, i8_len]; omega
      · rename_i sc index _
        have h1 := hr (modrmReg mm) rm.base index (.ind (.s1 sc index) disp)
        have h2 := disp_len imm disp
        have h3 := sib_len sc index rm.base
        simp only [lenOf_append, i8s_len, lenOf_cons, lenOf_nil, i8_len]; omega
    · have h1 := hr (modrmReg mm) rm.base scale.index (.ind scale disp)
      have h2 := disp_len imm (if disp = .none ∧ (rm.base.num &&& 0b111) = 5 then .d8 0 else disp)
      have h3 : lenOf (scaleItems scale rm.base) ≤ 1 := by
        cases scale with
        | none => simp [scaleItems]
        | s1 sc ix => simpa [scaleItems] using sib_len sc ix rm.base
      simp only [lenOf_append, i8s_len, lenOf_cons, lenOf_nil, i8_len]; omega

theorem items_len {i its} (h : items i = .ok its) : lenOf its ≤ 12 := by
  have hs := items_shape h
  clear h
  cases hs with
  | label l => simp [Item.len]
  | bytes bs imm h => simpa [i8s_len] using h.2
  | o pre k op reg imm h =>
    have := o_len k op reg
    simp only [lenOf_append, i8s_len]; omega
  | enc pre op k mm rm imm h =>
    have := enc_len op k mm rm imm
    simp only [lenOf_append, i8s_len]; omega
  | round a b c =>
    have := enc_len [0x0f, 0x3a, 0x09] .none (.reg a.toReg) b.toRm .none
    simp only [List.cons_append, lenOf_append, lenOf_cons, lenOf_nil, Item.len, immItems, List.length_cons, List.length_nil] at *
    omega
  | d op l h => simp only [lenOf_append, i8s_len, lenOf_cons, lenOf_nil, Item.len]; omega
  | imm pre h => rcases h with rfl | rfl <;> simp [Item.len]
  | cl => simp [Item.len]

theorem o_pos {k op r} (h : NoFail (It.o k op r)) : 0 < lenOf (It.o k op r) := by
  simp only [It.o] at h ⊢
  split
  · rename_i hr
    rw [if_pos hr] at h
    exact absurd (by simp) (h .assertFailed)
  · simp [Item.len]

theorem enc_pos {op k mm rm imm} (h : NoFail (encItems op k mm rm imm)) : 0 < lenOf (encItems op k mm rm imm) := by
  simp only [encItems] at h ⊢
  (repeat' split) <;> simp_all [Item.len] <;> omega

/-- Everything but a label takes at least one byte. -/
theorem items_pos {i its} (h : items i = .ok its) (hn : NoFail its) : (∃ l, i = .Label l) ∨ 0 < lenOf its := by
  have hs := items_shape h
  clear h
  cases hs with
  | label l => exact .inl ⟨l, rfl⟩
  | bytes bs imm h => right; simpa [i8s_len] using h.1
  | o pre k op reg imm h =>
    right
    have := o_pos ((noFail_append _ _).1 ((noFail_append _ _).1 hn).2).1
    simp only [lenOf_append]; omega
  | enc pre op k mm rm imm h =>
    right
    have := enc_pos ((noFail_append _ _).1 hn).2
    simp only [lenOf_append]; omega
  | round a b c => right; simp [Item.len]; omega
  | d op l h => right; simp [Item.len]
  | imm pre h => exact absurd (by simp) (hn .immOutOfRange)
  | cl => exact absurd (by simp) (hn .regShouldBeCl)

/-! ### Labels -/

theorem enc_rel {op k mm} {rm : Rm} {imm l off} (h : Item.rel l off ∈ encItems op k mm rm imm) :
    rm.mode.disp = .label l := by
  have hd : ∀ d, Item.rel l off ∈ dispItems imm d → d = .label l := by
    intro d h; cases d <;> simp [dispItems] at h; rw [h.1]
  obtain ⟨base, mode⟩ := rm
  simp only [encItems] at h
  split at h
  · simp at h
  split at h
  · split at h
    · simp at h
    · rename_i rm' e
      simp [rex_noRel, imm_noRel] at h
      have := hd _ h
      simp only [Rm.rip_ind_from] at e
      split at e <;> cases e <;> simp_all [Mode.disp]
  split at h
  · simp [rex_noRel, imm_noRel] at h
  · simp only [Mode.disp]
    split at h
    · split at h <;> simp [rex_noRel, imm_noRel, sibItem] at h
      · exact hd _ h
      · rcases h with h | h
        · split at h <;> simp at h
        · exact hd _ h
    · simp [rex_noRel, imm_noRel] at h
      rcases h with h | h
      · simp only [scaleItems] at h
        split at h
        · simp at h
        · simp only [sibItem] at h; split at h <;> simp at h
      · have := hd _ h
        split at this
        · simp at this
        · exact this

theorem ind_label {a : IndAddr V DestLabel} {l} (h : a.toRm.mode.disp = .label l) : l ∈ a.labels := by
  obtain ⟨base, scale, disp⟩ := a
  cases disp with
  | label l' => simp [IndAddr.toRm, Rm.ind, Mode.disp, MDisp.toDisp, Disp.from_label] at h; simp [IndAddr.labels, MDisp.labels, h]
  | imm d => exact absurd h (from_disp_noLabel _ _)
  | expr n e => cases n <;> exact absurd h (from_disp_noLabel _ _)

theorem rm_label {a : RmOperand V DestLabel} {l} (h : a.toRm.mode.disp = .label l) : l ∈ a.labels := by
  cases a with
  | reg r => simp [RmOperand.toRm, Rm.reg, Mode.disp] at h
  | ind a => exact ind_label h

theorem xm_label {a : XmOperand V DestLabel} {l} (h : a.toRm.mode.disp = .label l) : l ∈ a.labels := by
  cases a with
  | xmm r => simp [XmOperand.toRm, Rm.reg, Mode.disp] at h
  | ind a => exact ind_label h

theorem enc_rel_ind {op k mm imm l off} {a : IndAddr V DestLabel}
    (h : Item.rel l off ∈ encItems op k mm a.toRm imm) : l ∈ a.labels := ind_label (enc_rel h)
theorem enc_rel_rm {op k mm imm l off} {a : RmOperand V DestLabel}
    (h : Item.rel l off ∈ encItems op k mm a.toRm imm) : l ∈ a.labels := rm_label (enc_rel h)
theorem enc_rel_xm {op k mm imm l off} {a : XmOperand V DestLabel}
    (h : Item.rel l off ∈ encItems op k mm a.toRm imm) : l ∈ a.labels := xm_label (enc_rel h)
theorem enc_rel_reg {op k mm imm l off} {r : Reg} :
    Item.rel l off ∉ encItems op k mm (Rm.reg r) imm := fun h => by
  have := enc_rel h; simp [Rm.reg, Mode.disp] at this

attribute [local irreducible] encItems

macro "lbl" h:ident : tactic => `(tactic|
  (simp only [It.rexw_mr, It.mr, It.mr_byte, It.mi, It.rexw_mi, It.mi_byte, It.m_byte, It.digit, It.digit_imm,
    It.rexw_digit, It.d, It.sd, Inst.labels, List.mem_append, List.mem_cons, List.mem_map, List.not_mem_nil, reduceCtorEq,
    false_or, or_false, RmOperand.labels, RmiOperand.labels, XmOperand.labels, MovOperand.labels, Dest.labels,
    and_false, exists_false, enc_rel_reg, o_noRel, imm_noRel, immItems,
    Item.rel.injEq, RmOperand.toRm, XmOperand.toRm] at $h:ident ⊢ <;>
   first
   | exact $h | exact enc_rel_ind $h | exact enc_rel_rm $h | exact enc_rel_xm $h
   | exact ($h).1 | exact .inl (enc_rel_ind $h) | exact .inl (enc_rel_rm $h)
   | exact .inr (enc_rel_ind $h)| exact .inr (enc_rel_rm $h)))

theorem mention_binary {size op dg op1 op2 its l off} (h : It.binary_op size op dg op1 op2 = .ok its)
    (hl : Item.rel l off ∈ its) : l ∈ op1.labels ++ op2.labels := by
  cases size <;> cases op1 <;> cases op2 <;>
    simp only [It.binary_op, It.binary_opq, It.binary_opl, It.binary_opw, It.binary_opb, It.digit_imm_byte,
      Except.ok.injEq, reduceCtorEq] at h <;> subst h <;> (repeat' split at hl) <;> lbl hl

theorem mention_shift {w dg op1 op2 its l off} (h : It.shift_op w dg op1 op2 = .ok its)
    (hl : Item.rel l off ∈ its) : l ∈ op1.labels := by
  cases w <;> cases op2 <;> simp only [It.shift_op, Except.ok.injEq, reduceCtorEq] at h <;> subst h <;>
    (repeat' split at hl) <;> lbl hl

theorem mention_count {w op op1 op2 its l off} (h : It.count_op w op op1 op2 = .ok its)
    (hl : Item.rel l off ∈ its) : l ∈ op2.labels := by
  cases w <;> simp only [It.count_op, Except.ok.injEq, reduceCtorEq] at h <;> subst h <;> lbl hl

set_option maxHeartbeats 1000000 in
theorem items_mention {i its l off} (h : items i = .ok its) (hl : Item.rel l off ∈ its) : i.mentions l := by
  simp only [Inst.mentions]
  cases i
  case Add | Sub | Adc | Sbb | And | Or | Xor | Cmp => exact mention_binary h hl
  case Shl | Shr | Sal | Sar | Rol | Ror => exact mention_shift h hl
  case Lzcnt | Tzcnt | Popcnt => exact mention_count h hl
  case F64 => simp only [items, Except.ok.injEq] at h; subst h; simp at hl
  case Movq a b =>
    cases a <;> cases b <;> simp only [items, It.movq, Except.ok.injEq, reduceCtorEq] at h <;>
      (try (first | (subst h; (repeat' split at hl) <;> lbl hl; done) | (split at h <;> simp at h; subst h; lbl hl; done)))
    rename_i v sz
    cases sz <;> simp only [It.movq, Except.ok.injEq, reduceCtorEq] at h
    subst h; split at hl <;> lbl hl
  case Movl a b =>
    cases a <;> cases b <;> simp only [items, It.movl, Except.ok.injEq, reduceCtorEq] at h <;> subst h <;>
      (repeat' split at hl) <;> lbl hl
  case Movw a b =>
    cases a <;> cases b <;> simp only [items, It.movw, Except.ok.injEq, reduceCtorEq] at h <;> subst h <;>
      (repeat' split at hl) <;> lbl hl
  case Movb a b =>
    cases a <;> cases b <;> simp only [items, It.movb, Except.ok.injEq, reduceCtorEq] at h <;> subst h <;>
      (repeat' split at hl) <;> lbl hl
  case Testq a b | Testb a b =>
    cases a <;> cases b <;> simp only [items, Except.ok.injEq, reduceCtorEq] at h <;> subst h <;>
      (repeat' split at hl) <;> lbl hl
  case Call d | Jmp d =>
    cases d <;> simp only [items, Except.ok.injEq, reduceCtorEq] at h <;> subst h <;>
      (repeat' split at hl) <;> lbl hl
  case Xchg sz a b =>
    cases sz <;> cases a <;> cases b <;> simp only [items, Except.ok.injEq, reduceCtorEq] at h <;> subst h <;>
      (repeat' split at hl) <;> lbl hl
  case Imul a b | Movsd a b | Lea a b =>
    cases a <;> cases b <;> simp only [items, Except.ok.injEq, reduceCtorEq] at h <;> subst h <;> lbl hl
  case Cmovcc sz _ _ _ => cases sz <;> simp only [items, Except.ok.injEq, reduceCtorEq] at h <;> subst h <;> lbl hl
  case Pushq op | Popq op =>
    cases op <;> simp only [items, It.push_pop, Except.ok.injEq, reduceCtorEq] at h <;> subst h <;> lbl hl
  all_goals
    simp only [items, Except.ok.injEq] at h; subst h; lbl hl

end Monoasm
