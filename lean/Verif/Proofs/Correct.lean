import Verif.Spec.Operand
import Verif.Proofs.Assemble
/-
  Every group of statements is assembled correctly.
-/

set_option linter.unusedSimpArgs false

namespace Monoasm
open Spec

theorem correct {i} (ha : Valid i → Accepted i) (h1 : ∀ a b c, i ≠ .Roundpd a b c)
    (h2 : ∀ a b, i ≠ .Cvttsd2siq a b) : Correct i where
  accepted := ha
  assembles := fun _ hv hi hk hr => by
    obtain ⟨rel, I, hM⟩ := id hv
    exact assembles (ha hv) hM hi hk hr
  faithful := faithful i h1 h2

theorem accepted_of {i its} (h : items i = .ok its) : Accepted i := accepted_items.2 ⟨its, h⟩

theorem alu_accepted {sz a b rel op I} (o d) (h : Spec.alu rel op sz a b = some I) :
    ∃ its, It.binary_op sz o d a b = .ok its := by
  cases sz <;> cases a <;> cases b <;>
    first
    | exact ⟨_, rfl⟩
    | (exfalso
       simp only [Spec.alu, Spec.rm, Spec.rmi] at h
       rename_i a b
       cases h1 : addr rel a <;> cases h2 : addr rel b <;> simp [h1, h2, notBothMem] at h)

theorem isAlu_accepted {i} (h : IsAlu i) (hv : Valid i) : Accepted i := by
  obtain ⟨rel, I, hM⟩ := hv
  cases h <;> simp only [meaning] at hM <;>
    exact accepted_items.2 (alu_accepted _ _ hM)

theorem mov_mem {sz rel a b I} (h : Spec.mov rel sz (.ind a) (.ind b) = some I) : False := by
  simp only [Spec.mov, Spec.rm, Spec.rmi] at h
  cases h1 : addr rel a <;> cases h2 : addr rel b <;> simp [h1, h2, notBothMem] at h

theorem isMove_accepted {i} (h : IsMove i) (hv : Valid i) : Accepted i := by
  obtain ⟨rel, I, hM⟩ := hv
  cases h
  case movq a b h h' =>
    cases a <;> cases b <;> simp only [meaning, Spec.movq, reduceCtorEq] at hM <;>
      first
      | exact accepted_of rfl
      | skip
    · rename_i r i z
      cases z with
      | none => exact accepted_of rfl
      | some z => have := h' _ _ _ rfl rfl; subst this; exact accepted_of rfl
    · rename_i m i z
      have := h _ _ _ rfl rfl; subst this
      exact accepted_of rfl
  case movl a b | movw a b | movb a b =>
    cases a <;> cases b <;> first | exact accepted_of rfl | (exfalso; exact mov_mem hM)
  case lea a b => cases a <;> cases b <;> first | exact accepted_of rfl | simp [meaning] at hM
  case xchgq a b =>
    cases a <;> cases b <;> first | exact accepted_of rfl | skip
    rename_i a b
    simp only [meaning, Spec.xchg, Spec.rm] at hM
    cases h1 : addr rel a <;> cases h2 : addr rel b <;> simp [h1, h2] at hM
  case cmov sz c a b => cases sz <;> first | exact accepted_of rfl | simp [meaning] at hM
  case pushq a | popq a => cases a <;> exact accepted_of rfl
  all_goals exact accepted_of rfl

theorem shift_accepted {sz a b} (d) (h : sz = .QWORD ∨ sz = .DWORD) : ∃ its, It.shift_op sz d a b = .ok its := by
  rcases h with rfl | rfl <;> cases b <;> exact ⟨_, rfl⟩

theorem isShift_accepted {i} (h : IsShift i) : Accepted i := by
  cases h <;> exact accepted_items.2 (shift_accepted _ (by assumption))

theorem isArith_accepted {i} (h : IsArith i) (hv : Valid i) : Accepted i := by
  obtain ⟨rel, I, hM⟩ := hv
  cases h
  case imul a b h =>
    cases a <;> cases b <;> first
      | exact accepted_of rfl
      | exact absurd rfl (h _)
      | simp [meaning] at hM
  case testq a b | testb a b => cases a <;> cases b <;> exact accepted_of rfl
  case lzcnt h | tzcnt h | popcnt h => rcases h with rfl | rfl <;> exact accepted_of rfl
  all_goals exact accepted_of rfl

theorem isSse_accepted {i} (h : IsSse i) (hv : Valid i) : Accepted i := by
  obtain ⟨rel, I, hM⟩ := hv
  cases h
  case movsd a b =>
    cases a <;> cases b <;> first | exact accepted_of rfl | skip
    rename_i a b
    simp only [meaning, Spec.xm] at hM
    cases h1 : addr rel a <;> cases h2 : addr rel b <;> simp [h1, h2, notBothMem] at hM
  all_goals exact accepted_of rfl

theorem isControl_accepted {i} (h : IsControl i) : Accepted i := by
  cases h
  case jmp d h => cases d <;> first | exact accepted_of rfl | exact absurd rfl (h _)
  case call d => cases d <;> exact accepted_of rfl
  all_goals exact accepted_of rfl

/-! ### Statements without labels need no linking -/

theorem linked_self {i s s'} (hr : Runs i s s') (hl : ∀ l, ¬ i.mentions l) (la) : Linked s s' la s'.mem := by
  obtain ⟨its, hi, h⟩ := runs_items hr
  have ha : ∀ l, added s s' l = [] := by
    intro l
    rw [ran_added h]
    apply List.eq_nil_iff_forall_not_mem.2
    intro t ht
    obtain ⟨pre, off, post, h1, _⟩ := mem_relsOf ht
    exact hl l (items_mention (off := off) hi (by rw [h1]; simp))
  exact ⟨fun l p off pos h => by simp [ha] at h, fun a _ _ _ => rfl⟩

theorem plain {i s s' I} (hc : Correct i) (hr : Runs i s s') (hl : ∀ l, ¬ i.mentions l)
    (hM : ∀ rel, meaning rel i = some I) (rest) :
    X86.decode (bytes s'.mem (here s) (here s' - here s) ++ rest) = some (I, rest) :=
  hc.faithful s s' (fun _ => here s') s'.mem I hr (linked_self hr hl _)
    (fun _ => by dsimp only; constructor <;> omega) (hM _) rest

/-! ### Filling slots -/

theorem linkable_items {its s s'} (h : Ran s its s') (hs : SlotsOk its) (la) : ∃ mem, Linked s s' la mem :=
  ⟨_, linked_put h (slotsOk_vals h hs)⟩

/-- The offset recorded by `roundpd` is one too small. -/
theorem round_vals {a b m its s s' la} (hi : items (.Roundpd a b m) = .ok its) (hr : Ran s its s') :
    SlotVals s la (fun l => BitVec.ofInt 32 ((la l : Int) - (here s' - 1 : Nat))) its := by
  simp only [items, Except.ok.injEq] at hi
  intro pre l off post e
  have hh := hr.here
  have hsl : SlotsOk (.i8 0x66 :: It.mr [0x0f, 0x3a, 0x09] a.toReg b.toRm) :=
    slotsOk_append (a := [.i8 0x66]) (by simp) (slotsOk_enc _ _ _ _ _)
  revert hsl hi
  generalize Item.i8 0x66 :: It.mr [0x0f, 0x3a, 0x09] a.toReg b.toRm = X
  intro hi hsl
  obtain ⟨post', rfl, e2⟩ : ∃ post', post = post' ++ [.i8 (m.setWidth 8)] ∧ X = pre ++ .rel l off :: post' := by
    rcases List.eq_nil_or_concat post with rfl | ⟨q, x, rfl⟩
    · have := (List.append_inj' (hi.trans e) rfl).2
      simp at this
    · rw [List.concat_eq_append] at e ⊢
      have h2 : X ++ [Item.i8 (m.setWidth 8)] = (pre ++ .rel l off :: q) ++ [x] := by rw [hi, e]; simp
      have h3 := List.append_inj' h2 rfl
      simp at h3
      exact ⟨q, by rw [h3.2], h3.1⟩
  have h4 := hsl _ _ _ _ e2
  rw [e] at hh
  simp only [lenOf_append, lenOf_cons, lenOf_nil, Item.len] at hh
  have : here s' - 1 = here s + lenOf pre + off.toNat := by omega
  simp only [this]

theorem linkable {i s s'} (h : Runs i s s') (la) : ∃ mem, Linked s s' la mem := by
  obtain ⟨its, hi, hr⟩ := runs_items h
  by_cases hR : ∃ a b m, i = .Roundpd a b m
  · obtain ⟨a, b, m, rfl⟩ := hR
    exact ⟨_, linked_put hr (round_vals hi hr)⟩
  · exact linkable_items hr (slotsOk_items hi fun a b m e => hR ⟨a, b, m, e⟩) la

/-- `roundpd` decodes as if the instruction ended one byte earlier. -/
theorem decode_round {a b m s s' la mem I} (h : Runs (.Roundpd a b m) s s') (hl : Linked s s' la mem)
    (hn : Near la (here s' - 1)) (hM : meaning (dist la (here s' - 1)) (.Roundpd a b m) = some I) (rest) :
    X86.decode (bytes mem (here s) (here s' - here s) ++ rest) = some (I, rest) := by
  obtain ⟨its, hi, hr⟩ := runs_items h
  have hh := hr.here
  have e : here s' - here s = lenOf its := by omega
  rw [e, linked_vals hr hl (round_vals hi hr)]
  exact (decode_items (near_fits hn) (.Roundpd a b m) hM hi (hr.noFail _)).dec rest

/-- `roundpd` without label. -/
theorem faithful_round {a b m} (hb : b.labels = []) : Faithful (.Roundpd a b m) := by
  intro s s' la mem I hr hl hn hM rest
  obtain ⟨its, hi, hran⟩ := runs_items hr
  exact decode_linked hi hran (slotsOk_round hi hb) hl hn hM rest

/-- `cvttsd2siq` is encoded with 32-bit destination. -/
theorem decode_cvtt {a b s s' la mem r o} (h : Runs (.Cvttsd2siq a b) s s') (hl : Linked s s' la mem)
    (hn : Near la (here s')) (ha : gpr a = some r) (hb : xm (dist la (here s')) b = some o) (rest) :
    X86.decode (bytes mem (here s) (here s' - here s) ++ rest) = some (.cvttf2si .sd .d (.gpr r) o, rest) := by
  obtain ⟨its, hi, hran⟩ := runs_items h
  exact decode_linked hi hran (slotsOk_items hi (by simp)) hl hn (by simp [actual, ha, hb]) rest

theorem dist_spec (la : DestLabel → Nat) (a : Nat) (l : DestLabel) :
    BitVec.ofNat 64 a + dist la a l = BitVec.ofNat 64 (la l) := by
  simp only [dist]
  apply BitVec.eq_of_toInt_eq
  have h (n : Nat) : (BitVec.ofNat 64 n).toInt = (n : Int).bmod (2 ^ 64) := by
    rw [BitVec.toInt_eq_toNat_bmod, BitVec.toNat_ofNat]
    simp only [Int.natCast_emod]
    exact Int.emod_bmod ..
  rw [BitVec.toInt_add, BitVec.toInt_ofInt, h, h]
  rw [Int.add_bmod_bmod, Int.bmod_add_bmod]
  congr 1
  omega

theorem runs_here {i s s'} (h : Runs i s s') : here s ≤ here s' ∧ here s' ≤ here s + 12 := by
  obtain ⟨its, hi, hr⟩ := runs_items h
  have := hr.here
  have := items_len hi
  omega

/-! ### Immediates -/

theorem constants_alu {rel op sz a v I} (h : Spec.alu rel op sz a (.imm v) = some I) : v ∈ constants I := by
  simp only [Spec.alu, Spec.rmi] at h
  cases ha : rm rel a <;> simp [ha, notBothMem] at h
  subst h
  simp only [constants, operands, List.mem_filterMap]
  exact ⟨.imm v, by simp, rfl⟩

theorem constants_mov {rel sz a v I} (h : Spec.mov rel sz a (.imm v) = some I) : v ∈ constants I := by
  simp only [Spec.mov, Spec.rmi] at h
  cases ha : rm rel a <;> simp [ha, notBothMem] at h
  subst h
  simp only [constants, operands, List.mem_filterMap]
  exact ⟨.imm v, by simp, rfl⟩

theorem constants_shift {rel op sz a v I} (h : Spec.shift rel op sz a (.imm v) = some I) : v ∈ constants I := by
  simp only [Spec.shift, Spec.ri] at h
  cases ha : rm rel a <;> simp [ha] at h
  subst h
  simp only [constants, operands, List.mem_filterMap]
  exact ⟨.imm v, by simp, rfl⟩

/-- The immediate written is the immediate of the instruction denoted. -/
theorem immediate_constant {rel i I v} (hi : immediate i = some v) (h : meaning rel i = some I) :
    v ∈ constants I := by
  cases i
  case Movq a b =>
    cases a <;> cases b <;> simp only [immediate, Spec.imm, Option.map_none, Option.map_some, Option.some.injEq, reduceCtorEq] at hi <;>
      subst hi <;> simp only [meaning, Spec.movq, reduceCtorEq] at h
    · rename_i r _ _; cases hg : gpr r <;> simp [hg] at h; subst h; (simp only [constants, operands, List.mem_filterMap]; exact ⟨.imm _, by simp, rfl⟩)
    · rename_i r _ _; cases hg : addr rel r <;> simp [hg] at h; subst h; (simp only [constants, operands, List.mem_filterMap]; exact ⟨.imm _, by simp, rfl⟩)
  case Movl a b | Movw a b | Movb a b =>
    cases b <;> simp [immediate, Spec.imm, rmiImm] at hi
    subst hi; exact constants_mov h
  case Add sz a b | Sub sz a b | Adc sz a b | Sbb sz a b | And sz a b | Or sz a b | Xor sz a b | Cmp sz a b =>
    cases b <;> simp [immediate, Spec.imm, rmiImm] at hi
    subst hi; exact constants_alu h
  case Shl sz a b | Shr sz a b | Sal sz a b | Sar sz a b | Rol sz a b | Ror sz a b =>
    cases b <;> simp [immediate, Spec.imm, riImm] at hi
    subst hi; exact constants_shift h
  case Testq a b | Testb a b =>
    cases b <;> simp [immediate, Spec.imm, riImm] at hi
    subst hi
    simp only [meaning, Spec.ri] at h
    cases hg : rm rel a <;> simp [hg] at h
    subst h; (simp only [constants, operands, List.mem_filterMap]; exact ⟨.imm _, by simp, rfl⟩)
  case Call d =>
    cases d <;> simp [immediate, Spec.imm] at hi
    subst hi
    simp [meaning] at h
    subst h; simp [constants]
  all_goals simp [immediate, Spec.imm] at hi

/-! ### Example states -/

theorem here_ex0 : here ex0 = 0x10000000 := by
  simp [here, ex0, JitMemory.new, MemPage.new]

theorem here_ex1 : here ex1 = 0x10000000 := by
  simp [here, ex1, JitMemory.label, Res.state, ex0, JitMemory.new, MemPage.new]

theorem room_ex0 : Room ex0 := by
  simp [Room, cursor, ex0, JitMemory.new, MemPage.new, PAGE_SIZE]

theorem room_ex1 : Room ex1 := by
  simp [Room, cursor, ex1, ex0, JitMemory.label, Res.state, JitMemory.new, MemPage.new, PAGE_SIZE]

theorem assembled {i I} (hc : Correct i) (hM : ∀ rel, meaning rel i = some I) (hi : ImmOk i)
    (hl : ∀ l, ¬ i.mentions l) : ∃ s', Runs i ex0 s' ∧ ∀ rest,
      X86.decode (bytes s'.mem (here ex0) (here s' - here ex0) ++ rest) = some (I, rest) := by
  obtain ⟨s', h⟩ := hc.assembles ex0 ⟨_, _, hM fun _ => 0⟩ hi (fun l h => absurd h (hl l)) room_ex0
  exact ⟨s', h, plain hc h hl hM⟩

end Monoasm
