import Verif.Spec.Shown
import Verif.Proofs.Correct
import Verif.Props.C41
/-
  C63: diagnostics. If a statement is refused, there is a message which names the instruction and
  shows the operands: read as source text, what is shown denotes the operand written.

  The property is false: the text of a memory operand leaves out the index; a label in it is shown
  as if it were the name of a number; the messages for `imul` and for 8-bit arithmetic name no
  instruction, the one for `movb` names another.
-/

namespace Monoasm
open Spec

variable {X : RustExpr} {ρ : List Tok → Val} {σ : String → Nat}

/-- Registers of the run-time library are shown as register operands for them, whatever their number. -/
theorem C63_reg (hN : Numerals X ρ) (r : Reg) : ∃ r', RegSyn X r' r.display ∧ (r'.map ρ).toReg = r := by
  obtain ⟨n⟩ := r
  have e : intTokens (n.toNat : Int) "" = [.int n.toNat ""] := by
    unfold intTokens
    rw [if_neg (by omega)]
    rfl
  have h1 := hN.expr n.toNat
  have h2 := hN.value n.toNat
  rw [e] at h1 h2
  refine ⟨_, .expr h1, ?_⟩
  show Reg.from (ρ _) = ⟨n⟩
  rw [h2, Reg.from]
  congr 1
  apply BitVec.eq_of_toNat_eq
  rw [BitVec.toNat_setWidth, BitVec.toNat_ofInt]
  omega

/-- Registers: what is shown is a register operand for the same register. -/
theorem C63_register (hN : Numerals X ρ) {r : Register (List Tok)} (hr : RegOk X r) :
    ∃ r', RegSyn X r' r.display ∧ (r'.map ρ).toReg = (r.map ρ).toReg := by
  cases r with
  | expr e => exact ⟨_, .expr hr, rfl⟩
  | reg n =>
    obtain ⟨r', h1, h2⟩ := C63_reg (X := X) hN ⟨n⟩
    refine ⟨r', h1, h2.trans ?_⟩
    show (⟨n⟩ : Reg) = Reg.from (n.setWidth 64)
    simp [Reg.from]

/-- Memory operands without an index and a label: what is shown is a memory operand for the same
    address. -/
theorem C63_memory_partial (hN : Numerals X ρ) {a : IndAddr (List Tok) String} (hp : Plain a) (hr : RegOk X a.base)
    (hd : ∀ n e, a.disp = .expr n e → Converts X ρ e) :
    ∃ a', MemSyn X a' a.display ∧ (a'.map ρ σ).toRm = (a.map ρ σ).toRm := by
  obtain ⟨b, sc, d⟩ := a
  obtain ⟨hs, hl⟩ := hp
  cases hs
  obtain ⟨b', hb, hb'⟩ := C63_register hN hr
  have key : ∃ e, d.display = e ∧ IsExpr X e ∧ (MDisp.map ρ σ (.expr false e)).toDisp = (d.map ρ σ).toDisp := by
    refine ⟨_, rfl, ?_⟩
    cases d with
    | imm d =>
      refine ⟨hN.expr _, ?_⟩
      show Disp.from_disp ((ρ (intTokens d.toInt "")).setWidth 32) = Disp.from_disp d
      rw [hN.value]
      congr 1
      apply BitVec.eq_of_toInt_eq
      rw [BitVec.toInt_setWidth, BitVec.toNat_ofInt]
      have := d.isLt
      simp only [BitVec.toInt]
      split <;> (simp only [Int.bmod]; omega)
    | expr n e =>
      have h := hd n e rfl
      cases n
      · exact ⟨h.expr, congrArg Disp.from_disp h.value⟩
      · exact ⟨h.negExpr, congrArg Disp.from_disp h.negValue⟩
    | label l => exact absurd rfl (hl l)
  obtain ⟨e, rfl, hx, hv⟩ := key
  refine ⟨⟨b', .none, .expr false d.display⟩, .mk (.disp hb (.some (.plusExpr hx)) ?_), ?_⟩
  · intro l h
    simp at h
  · simp only [IndAddr.toRm, IndAddr.map, hb', hv]

/-- xmm registers. -/
theorem C63_xmm (hN : Numerals X ρ) (x : XmmReg (List Tok)) :
    ∃ x', XmmSyn x' x.display ∧ (x'.map ρ).toReg = (x.map ρ).toReg := by
  cases x with
  | expr e => exact ⟨_, .expr, rfl⟩
  | no n =>
    refine ⟨_, .expr, ?_⟩
    show Reg.from (ρ _) = Reg.from (n.setWidth 64)
    rw [hN.byte]
    congr 1
    apply BitVec.eq_of_toNat_eq
    rw [BitVec.toNat_ofNat, BitVec.toNat_setWidth]

/-- So operands of the class `r/m`, shown in a message, can be pasted into a program. -/
theorem C63_operand_partial (hX : Takes X) (hN : Numerals X ρ) {o : RmOperand (List Tok) String}
    (ho : OperandOk X (.rm o)) (ha : ∀ a, o = .ind a → Plain a ∧ ∀ n e, a.disp = .expr n e → Converts X ρ e) :
    ∃ o', (∀ rest, rmOperand X (o.display ++ .punct ',' :: rest) = .ok (o', .punct ',' :: rest)) ∧ (o'.map ρ σ).toRm = (o.map ρ σ).toRm := by
  have key : ∃ o', RmSyn X o' o.display ∧ (o'.map ρ σ).toRm = (o.map ρ σ).toRm := by
    cases o with
    | reg r =>
      obtain ⟨r', h1, h2⟩ := C63_register hN ho
      exact ⟨.reg r', h1, congrArg Rm.reg h2⟩
    | ind a =>
      obtain ⟨h1, h2⟩ := ha a rfl
      obtain ⟨a', h3, h4⟩ := C63_memory_partial (σ := σ) hN h1 ho.1 h2
      exact ⟨.ind a', h3, h4⟩
  obtain ⟨o', h1, h2⟩ := key
  exact ⟨o', fun rest => (reads_rm hX).complete h1 ⟨',', rest, rfl, .inl rfl⟩, h2⟩

/-- The other classes of operands. (Immediates are shown without parentheses: literals are readable.) -/
theorem C63_rmi_partial (hN : Numerals X ρ) {o : RmiOperand (List Tok) String} (ho : OperandOk X (.rmi o))
    (hi : ∀ e, o = .imm e → ∃ n suf, e = [.int n suf])
    (ha : ∀ a, o = .ind a → Plain a ∧ ∀ n e, a.disp = .expr n e → Converts X ρ e) :
    ∃ o', RmiSyn X o' o.display ∧ match o', o with
      | .imm e', .imm e => e' = e
      | .reg r', .reg r => (r'.map ρ).toReg = (r.map ρ).toReg
      | .ind a', .ind a => (a'.map ρ σ).toRm = (a.map ρ σ).toRm
      | _, _ => False := by
  cases o with
  | imm e =>
    obtain ⟨n, suf, rfl⟩ := hi e rfl
    exact ⟨.imm [.int n suf], .lit, rfl⟩
  | reg r =>
    obtain ⟨r', h1, h2⟩ := C63_register hN ho
    exact ⟨.reg r', h1, h2⟩
  | ind a =>
    obtain ⟨h1, h2⟩ := ha a rfl
    obtain ⟨a', h3, h4⟩ := C63_memory_partial (σ := σ) hN h1 ho.1 h2
    exact ⟨.ind a', h3, h4⟩

theorem C63_ri_partial (hN : Numerals X ρ) {o : RiOperand (List Tok)} (ho : OperandOk X (.ri o))
    (hi : ∀ e, o = .imm e → ∃ n suf, e = [.int n suf]) :
    ∃ o', RiSyn X o' o.display ∧ match o', o with
      | .imm e', .imm e => e' = e
      | .reg r', .reg r => (r'.map ρ).toReg = (r.map ρ).toReg
      | _, _ => False := by
  cases o with
  | imm e =>
    obtain ⟨n, suf, rfl⟩ := hi e rfl
    exact ⟨.imm [.int n suf], .lit, rfl⟩
  | reg r =>
    obtain ⟨r', h1, h2⟩ := C63_register hN ho
    exact ⟨.reg r', h1, h2⟩

theorem C63_xm_partial (hN : Numerals X ρ) {o : XmOperand (List Tok) String} (ho : OperandOk X (.xm o))
    (ha : ∀ a, o = .ind a → Plain a ∧ ∀ n e, a.disp = .expr n e → Converts X ρ e) :
    ∃ o', XmSyn X o' o.display ∧ (o'.map ρ σ).toRm = (o.map ρ σ).toRm := by
  cases o with
  | xmm x =>
    obtain ⟨x', h1, h2⟩ := C63_xmm hN x
    exact ⟨.xmm x', h1, congrArg Rm.reg h2⟩
  | ind a =>
    obtain ⟨h1, h2⟩ := ha a rfl
    obtain ⟨a', h3, h4⟩ := C63_memory_partial (σ := σ) hN h1 ho.1 h2
    exact ⟨.ind a', h3, h4⟩

/-- Operands of `movq`; immediates without a size (see `C63_size_wrong`). -/
theorem C63_mov_partial (hN : Numerals X ρ) {o : MovOperand (List Tok) String} (ho : OperandOk X (.mov o))
    (hi : ∀ e sz, o = .imm e sz → sz = none ∧ ∃ n suf, e = [.int n suf])
    (ha : ∀ a, o = .ind a → Plain a ∧ ∀ n e, a.disp = .expr n e → Converts X ρ e) :
    ∃ o', MovSyn X o' o.display ∧ match o', o with
      | .imm e' sz', .imm e sz => e' = e ∧ sz' = sz
      | .reg r', .reg r => (r'.map ρ).toReg = (r.map ρ).toReg
      | .xmm x', .xmm x => (x'.map ρ).toReg = (x.map ρ).toReg
      | .ind a', .ind a => (a'.map ρ σ).toRm = (a.map ρ σ).toRm
      | _, _ => False := by
  cases o with
  | imm e sz =>
    obtain ⟨rfl, n, suf, rfl⟩ := hi e sz rfl
    exact ⟨.imm [.int n suf] none, .lit, rfl, rfl⟩
  | reg r =>
    obtain ⟨r', h1, h2⟩ := C63_register hN ho
    exact ⟨.reg r', h1, h2⟩
  | xmm x =>
    obtain ⟨x', h1, h2⟩ := C63_xmm hN x
    exact ⟨.xmm x', h1, h2⟩
  | ind a =>
    obtain ⟨h1, h2⟩ := ha a rfl
    obtain ⟨a', h3, h4⟩ := C63_memory_partial (σ := σ) hN h1 ho.1 h2
    exact ⟨.ind a', h3, h4⟩

/-- Sizes that are shown alike are equal. -/
theorem C63_sizes (a b : OperandSize) (h : a.debug = b.debug) : a = b := by
  revert h
  cases a <;> cases b <;> decide

/-- There is a message for every statement that is refused by the macro, and for no other. -/
theorem C63_rejected (i : TInst) : (rejection i).isSome ↔ ¬ Accepted (i.map ρ σ) := by
  cases i
  case Movq a b =>
    cases a <;> cases b <;> (try (rename_i o; cases o)) <;> (try (rename_i o; cases o)) <;>
      simp [rejection, movqMessage, Accepted, Inst.map, compile, movq, MovOperand.map]
  case Movl a b => cases a <;> cases b <;> simp [rejection, memMemMessage, Accepted, Inst.map, compile, movl, RmOperand.map, RmiOperand.map]
  case Movw a b => cases a <;> cases b <;> simp [rejection, memMemMessage, Accepted, Inst.map, compile, movw, RmOperand.map, RmiOperand.map]
  case Movb a b => cases a <;> cases b <;> simp [rejection, memMemMessage, Accepted, Inst.map, compile, movb, RmOperand.map, RmiOperand.map]
  case Xchg sz a b => cases sz <;> cases a <;> cases b <;> simp [rejection, Accepted, Inst.map, compile, RmOperand.map]
  case Cmovcc sz c a b => cases sz <;> simp [rejection, Accepted, Inst.map, compile]
  case Imul a b => cases a <;> cases b <;> simp [rejection, Accepted, Inst.map, compile, RmiOperand.map]
  case Movsd a b => cases a <;> cases b <;> simp [rejection, Accepted, Inst.map, compile, XmOperand.map]
  case Lea a b => cases a <;> cases b <;> simp [rejection, Accepted, Inst.map, compile, RmOperand.map]
  case Jmp d => cases d <;> simp [rejection, Accepted, Inst.map, compile, Dest.map]
  case Call d => cases d <;> simp [rejection, Accepted, Inst.map, compile, Dest.map]
  case Pushq a => cases a <;> simp [rejection, Accepted, Inst.map, compile, push_pop, RmOperand.map]
  case Popq a => cases a <;> simp [rejection, Accepted, Inst.map, compile, push_pop, RmOperand.map]
  case Testq a b => cases a <;> cases b <;> simp [rejection, Accepted, Inst.map, compile, RmOperand.map, RiOperand.map]
  case Testb a b => cases a <;> cases b <;> simp [rejection, Accepted, Inst.map, compile, RmOperand.map, RiOperand.map]
  all_goals first
    | (simp [rejection, Accepted, Inst.map, compile, binary_sd_op, divide_op]; done)
    | (rename_i sz a b; cases sz <;> simp [rejection, countMessage, Accepted, Inst.map, compile, count_op]; done)
    | (rename_i sz a b; cases sz <;> cases a <;> cases b <;>
        simp [rejection, memMemMessage, shiftMessage, Accepted, Inst.map, compile, binary_op, binary_opq, binary_opl, binary_opw, binary_opb,
          shift_op, RmOperand.map, RmiOperand.map, RiOperand.map]; done)

/-- The message names the statement, for all statements that can be written except `imul`. -/
theorem C63_named_partial {i : TInst} {m : Message} (hi : Expressible X i) (hm : rejection i = some m)
    (hn : ∀ a b, i ≠ .Imul a b) : names m.name i := by
  obtain ⟨s, os⟩ := m
  cases i
  case Imul a b => exact absurd rfl (hn a b)
  case Movq a b =>
    cases a <;> cases b <;> (try (rename_i o; cases o)) <;> (try (rename_i o; cases o)) <;>
      simp [rejection, movqMessage] at hm <;> (try (obtain ⟨rfl, -⟩ := hm; simp only [names, spellings]; decide +kernel))
    · cases hi.2 _ (List.mem_cons_of_mem _ (List.mem_singleton.2 rfl))
    · cases hi.2 _ (List.mem_cons_of_mem _ (List.mem_singleton.2 rfl))
    · cases hi.2 _ (List.mem_cons_of_mem _ (List.mem_singleton.2 rfl))
  case Movl a b => cases a <;> cases b <;> simp [rejection, memMemMessage] at hm; obtain ⟨rfl, -⟩ := hm; simp only [names, spellings]; decide +kernel
  case Movw a b => cases a <;> cases b <;> simp [rejection, memMemMessage] at hm; obtain ⟨rfl, -⟩ := hm; simp only [names, spellings]; decide +kernel
  case Movb a b => cases a <;> cases b <;> simp [rejection, memMemMessage] at hm; obtain ⟨rfl, -⟩ := hm; simp only [names, spellings]; decide +kernel
  case Xchg sz a b => cases sz <;> cases a <;> cases b <;> simp [rejection] at hm <;> (obtain ⟨rfl, -⟩ := hm; simp only [names, spellings]; decide +kernel)
  case Movsd a b => cases a <;> cases b <;> simp [rejection] at hm; obtain ⟨rfl, -⟩ := hm; simp only [names, spellings]; decide +kernel
  case Lea a b => cases a <;> cases b <;> simp [rejection] at hm <;> (obtain ⟨rfl, -⟩ := hm; simp only [names, spellings]; decide +kernel)
  case Jmp d => cases d <;> simp [rejection] at hm; obtain ⟨rfl, -⟩ := hm; simp only [names, spellings]; decide +kernel
  case Cmovcc sz c a b =>
    cases sz <;> simp [rejection] at hm
    rcases hi.1 with ⟨l, h⟩ | h
    · cases h
    · exact absurd rfl h
  all_goals first
    | (simp [rejection] at hm; done)
    | (rename_i sz a b; cases sz <;> cases a <;> cases b <;> simp [rejection, memMemMessage] at hm <;> (obtain ⟨rfl, -⟩ := hm; simp only [names, spellings]; decide +kernel); done)
    | (rename_i sz a b; cases sz <;> simp [rejection, shiftMessage, countMessage] at hm <;>
        (rcases hi.1 with ⟨l, h⟩ | h
         · cases h
         · exact absurd rfl h))

/-- The operands shown are operands of the statement, in the order written; where two are written and
    any are shown, both are, except for `imul`. -/
theorem C63_order {i : TInst} {m : Message} (hm : rejection i = some m) :
    InOrder (writtens i) m.operands
      ∧ (m.operands = [] ∨ m.operands.length = (writtens i).length ∨ ∃ a b, i = .Imul a b) := by
  have nil : ∀ os, InOrder os [] := fun os => ⟨[], List.nil_sublist os, rfl, by simp⟩
  have two : ∀ {a b x y}, ShownAs a x → ShownAs b y → InOrder [a, b] [x, y] := by
    intro a b x y h1 h2
    refine ⟨[(a, x), (b, y)], List.Sublist.refl _, rfl, ?_⟩
    intro p hp
    simp only [List.mem_cons, List.not_mem_nil, or_false] at hp
    rcases hp with rfl | rfl
    · exact h1
    · exact h2
  have mm : ∀ {name a b m}, memMemMessage name a b = some m → InOrder [.rm a, .rmi b] m.operands
      ∧ (m.operands = [] ∨ m.operands.length = 2 ∨ ∃ a b, i = .Imul a b) := by
    intro name a b m h
    cases a <;> cases b <;> simp [memMemMessage] at h
    subst h
    exact ⟨two (.rm (.ind _)) (.rmiInd _), .inr (.inl rfl)⟩
  cases i
  case Movq a b =>
    cases a <;> cases b <;> (try (rename_i o; cases o)) <;> (try (rename_i o; cases o)) <;> simp [rejection, movqMessage] at hm <;> subst hm <;>
      first
      | exact ⟨two (.movImm _ _) (.mov _), .inr (.inl rfl)⟩
      | exact ⟨two (.movXmm _) (.movImm _ _), .inr (.inl rfl)⟩
      | exact ⟨two (.mov (.ind _)) (.mov (.imm _ _)), .inr (.inl rfl)⟩
      | exact ⟨two (.mov (.ind _)) (.mov (.ind _)), .inr (.inl rfl)⟩
      | exact ⟨nil _, .inl rfl⟩
  case Xchg sz a b =>
    cases sz <;> cases a <;> cases b <;> simp [rejection] at hm <;> subst hm <;> exact ⟨two (.rm _) (.rm _), .inr (.inl rfl)⟩
  case Imul a b =>
    cases a <;> cases b <;> simp [rejection] at hm <;> subst hm <;>
      first
      | exact ⟨nil _, .inl rfl⟩
      | exact ⟨⟨[(.rmi (.imm _), _)], .cons _ (List.Sublist.refl _), rfl, by simpa using .rmiImm _⟩, .inr (.inr ⟨_, _, rfl⟩)⟩
  case Movsd a b => cases a <;> cases b <;> simp [rejection] at hm; subst hm; exact ⟨two (.xmInd _) (.xmInd _), .inr (.inl rfl)⟩
  case Lea a b => cases a <;> cases b <;> simp [rejection] at hm <;> subst hm <;> exact ⟨two (.rm _) (.rm _), .inr (.inl rfl)⟩
  case Jmp d =>
    cases d <;> simp [rejection] at hm
    subst hm
    exact ⟨⟨[(.dest (.disp _), _)], List.Sublist.refl _, rfl, by simpa using .target _⟩, .inr (.inl rfl)⟩
  case Cmovcc sz c a b => cases sz <;> simp [rejection] at hm; subst hm; exact ⟨nil _, .inl rfl⟩
  all_goals first
    | (simp [rejection] at hm; done)
    | (simp only [rejection] at hm; exact mm hm)
    | (rename_i sz a b; cases sz <;> simp [rejection, shiftMessage, countMessage] at hm <;> subst hm <;> exact ⟨nil _, .inl rfl⟩)

/-- There is a message also for every immediate that is out of range, ... -/
theorem C63_immediate {i : TInst} {n v} (h : imm (i.map ρ σ) = some (n, v)) (ha : Accepted (i.map ρ σ)) :
    (complaint i).isSome := by
  cases i
  case Movq a b =>
    cases a <;> cases b <;> simp [imm, Inst.map, MovOperand.map] at h
    rename_i a e sz
    cases sz
    · rfl
    · simp [Accepted, Inst.map, MovOperand.map, compile, movq] at ha
  case Call d => cases d <;> simp [imm, Inst.map, Dest.map] at h; rfl
  all_goals first
    | rfl
    | (simp [imm, Inst.map] at h; done)
    | (rename_i a b; cases b <;> first | rfl | (cases h; done))
    | (rename_i sz a b; cases sz <;> cases b <;> first | rfl | cases h)

/-- ... which names the statement, except for `movb` and the 8-bit arithmetic. -/
theorem C63_complaint_partial {i : TInst} {s : String} (hi : Expressible X i) (h : complaint i = some s)
    (hb : ∀ a b, i ≠ .Movb a b) (hs : s ≠ "") : names s i := by
  cases i
  case Movb a b => exact absurd rfl (hb a b)
  case Movq a b =>
    cases a <;> cases b <;> (try (rename_i o; cases o)) <;> simp [complaint] at h
    subst h; simp only [names, spellings]; decide +kernel
  case Call d => cases d <;> simp [complaint] at h; subst h; simp only [names, spellings]; decide +kernel
  all_goals first
    | (simp [complaint] at h; done)
    | (rename_i a b; cases b <;> simp [complaint] at h; subst h; simp only [names, spellings]; decide +kernel)
    | (rename_i sz a b; cases sz <;> cases b <;> simp [complaint, aluComplaint] at h <;>
        first | exact absurd h hs | exact absurd h.symm hs | (subst h; simp only [names, spellings]; decide +kernel) | exact absurd rfl (hi.1.resolve_left (by rintro ⟨l, h⟩; cases h)))

/-- **The index is not shown**: addresses that differ only in the index look the same. -/
theorem C63_index_lost (b : Register (List Tok)) (sc sc' : MScale (List Tok)) (d : MDisp (List Tok) String) :
    IndAddr.display ⟨b, sc, d⟩ = IndAddr.display ⟨b, sc', d⟩ := rfl

/-- What a memory operand that is shown is read as. -/
theorem C63_reading {e d : List Tok} {a : IndAddr (List Tok) String}
    (h : MemSyn X a [.group .bracket [.ident "R", .group .paren e, .punct '+', .group .paren d]]) :
    a = ⟨.expr e, .none, .expr false d⟩ := by
  obtain ⟨h⟩ := h
  generalize hts : [Tok.ident "R", .group .paren e, .punct '+', .group .paren d] = ts at h
  cases h with
  | disp hb hd _ =>
    cases hb with
    | name hn =>
      cases hd with
      | none => cases hts
      | some hd => cases hd <;> cases hts
    | expr he =>
      cases hd with
      | none => cases hts
      | some hd =>
        cases hd with
        | plus hl => cases hl <;> cases hts
        | plusExpr => cases hts; rfl
        | _ => cases hts
  | index hb hi =>
    cases hb with
    | name hn => cases hts
    | expr he => cases hi <;> cases hts

/-- `addq [rax + rcx*8 + 16], [rdx]` -/
def memMem : TInst := .Add .QWORD (.ind ⟨.reg 0, .s1 3 (.reg 1), .imm 16⟩) (.ind ⟨.reg 2, .none, .imm 0⟩)

/-- The message about it shows `ADD [R(0) + (16)], [R(2) + (0)]`. Whatever the first operand shown is
    read as is not the operand written. -/
theorem C63_index_wrong :
    rejection memMem = some ⟨"ADD", [[.group .bracket [.ident "R", .group .paren [.int 0 ""], .punct '+', .group .paren [.int 16 ""]]],
      [.group .bracket [.ident "R", .group .paren [.int 2 ""], .punct '+', .group .paren [.int 0 ""]]]]⟩
    ∧ ∀ a, MemSyn X a [.group .bracket [.ident "R", .group .paren [.int 0 ""], .punct '+', .group .paren [.int 16 ""]]] →
      (a.map ρ σ).toRm ≠ IndAddr.toRm ⟨.reg 0, .s1 3 (.reg 1), .imm 16⟩ := by
  refine ⟨rfl, ?_⟩
  intro a h e
  rw [C63_reading h] at e
  cases congrArg Rm.mode e

/-- **A label is shown as a number**: `[b + l]` is shown as `[b + (l)]`, which is only read as the
    displacement given by a variable `l`. -/
theorem C63_label_wrong {b : Register (List Tok)} {l : String} {a : IndAddr (List Tok) String}
    (h : MemSyn X a (IndAddr.display ⟨b, .none, .label l⟩)) : a.scale = .none ∧ a.disp = .expr false [.ident l] := by
  cases b <;> (rw [C63_reading h]; exact ⟨rfl, rfl⟩)

/-- **The immediate of `movq [rax], qword 5` is shown as `5:QWORD`**, which is not read as any operand. -/
theorem C63_size_wrong :
    rejection (.Movq (.ind ⟨.reg 0, .none, .imm 0⟩) (.imm [.int 5 ""] (some .QWORD)))
      = some ⟨"MOV", [IndAddr.display ⟨.reg 0, .none, .imm 0⟩, [.int 5 "", .punct ':', .ident "QWORD"]]⟩
    ∧ ∀ o, ¬ MovSyn X o [.int 5 "", .punct ':', .ident "QWORD"] := by
  refine ⟨rfl, fun o h => ?_⟩
  cases o with
  | imm e sz =>
    cases sz with
    | none => cases h
    | some sz => obtain ⟨-, ts, h, -⟩ := h; cases h
  | reg r => cases h
  | xmm x => cases h
  | ind a => cases h

/-- **`imul rax, 5`** is refused without a name, ... -/
theorem C63_imul_wrong : rejection (.Imul (.reg (.reg 0)) (.imm [.int 5 ""])) = some ⟨"", [[.ident "immediate"]]⟩ := rfl

/-- ... and so is `addb rax, 300`; **`movb rax, 300` is reported as `MOVW`.** -/
theorem C63_byte_wrong : complaint (.Add .BYTE (.reg (.reg 0)) (.imm [.int 300 ""])) = some ""
    ∧ complaint (.Movb (.reg (.reg 0)) (.imm [.int 300 ""])) = some "MOVW"
    ∧ names "MOVW" (.Movb (.reg (.reg 0)) (.imm [.int 300 ""])) = false :=
  ⟨rfl, rfl, by simp only [names, spellings]; decide +kernel⟩

/-- An evaluation of tokens as in Rust: numerals, `e as u64`, `e as i32`, `-e`, `-(e)`; variables have
    the value 5. -/
def exValue : List Tok → Val
  | [.int n _] => BitVec.ofNat 64 n
  | [.punct '-', .int n _] => -BitVec.ofNat 64 n
  | [.int n _, .other "as", .ident "u64"] => BitVec.ofNat 64 n
  | [.punct '-', .group .paren [.ident _, .other "as", .ident "i32"]] => -5
  | _ => 5

theorem numerals_ex : Numerals exExpr exValue where
  expr n := by unfold intTokens; split <;> rfl
  value n := by
    unfold intTokens
    split
    · show -BitVec.ofNat 64 n.natAbs = _
      rename_i h
      rw [← BitVec.ofInt_natCast, ← BitVec.ofInt_neg]
      congr 1
      omega
    · show BitVec.ofNat 64 n.natAbs = _
      rw [← BitVec.ofInt_natCast]
      congr 1
      omega
  byte n := rfl

/-- `[rbx - (x)]` and `[rsp - 8]` are shown as `[R(3) + (-(x as i32))]` and `[R(4) + (-8)]`, which are read as
    the same addresses. -/
example : (∃ o', (∀ rest, rmOperand exExpr ([.group .bracket [.ident "R", .group .paren [.int 3 ""], .punct '+', .group .paren
        [.punct '-', .group .paren [.ident "x", .other "as", .ident "i32"]]]] ++ .punct ',' :: rest) = .ok (o', .punct ',' :: rest))
      ∧ (o'.map exValue (fun _ => 0)).toRm = RmOperand.toRm (.ind ⟨.reg 3, .none, .expr true 5⟩))
    ∧ (∃ o', (∀ rest, rmOperand exExpr ([.group .bracket [.ident "R", .group .paren [.int 4 ""], .punct '+', .group .paren
        [.punct '-', .int 8 ""]]] ++ .punct ',' :: rest) = .ok (o', .punct ',' :: rest))
      ∧ (o'.map exValue (fun _ => 0)).toRm = RmOperand.toRm (.ind ⟨.reg 4, .none, .imm (-8)⟩)) := by
  constructor
  · refine C63_operand_partial (o := .ind ⟨.reg 3, .none, .expr true [.ident "x"]⟩) takes_exExpr numerals_ex ?_ ?_
    · exact ⟨(by decide : _ < 17), trivial, rfl⟩
    · rintro a ⟨⟩
      refine ⟨⟨rfl, by simp⟩, ?_⟩
      rintro n e ⟨⟩
      exact ⟨rfl, rfl, rfl, rfl⟩
  · refine C63_operand_partial (o := .ind ⟨.reg 4, .none, .imm (-8)⟩) takes_exExpr numerals_ex ?_ ?_
    · exact ⟨(by decide : _ < 17), trivial, trivial⟩
    · rintro a ⟨⟩
      exact ⟨⟨rfl, by simp⟩, by simp⟩

/-- `addq [rax + rcx*8 + 16], [rdx]` can be written, is refused, and the message names `add`. -/
example : Expressible exExpr memMem ∧ ∃ m, rejection memMem = some m ∧ names m.name memMem := by
  have h : Expressible exExpr memMem := by
    refine ⟨.inr (by simp [memMem, spellings]), ?_⟩
    intro o ho
    simp only [memMem, writtens, List.mem_cons, List.not_mem_nil, or_false] at ho
    rcases ho with rfl | rfl
    · exact ⟨(by decide : _ < 17), ⟨by decide, (by decide : _ < 17)⟩, trivial⟩
    · exact ⟨(by decide : _ < 17), trivial, trivial⟩
  exact ⟨h, _, rfl, C63_named_partial h rfl (by simp [memMem])⟩

end Monoasm
