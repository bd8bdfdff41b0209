import Verif.Spec.Progress
import Verif.Proofs.Listing
/-
  Helper lemmas for C60.
-/

namespace Monoasm
open Spec X86

/-- Registers and memory. -/
def writable : Opd → Bool
  | .gpr _ => true
  | .mem _ => true
  | _ => false

def xmmOrMem : Opd → Bool
  | .xmm _ => true
  | .mem _ => true
  | _ => false

def isXmm : Opd → Bool
  | .xmm _ => true
  | _ => false

def plainShift : ShiftOp → Bool
  | .rcl => false
  | .rcr => false
  | _ => true

def plainCnt : CntOp → Bool
  | .bsf => false
  | .bsr => false
  | _ => true

/-- The forms of instructions that the assembler generates. -/
def usual : Instr → Bool
  | .nop => true
  | .alu _ _ a _ => writable a
  | .test _ _ _ => true
  | .mov _ a _ => writable a
  | .movsx _ _ a _ => writable a
  | .movzx _ _ a _ => writable a
  | .lea _ a _ => writable a
  | .xchg _ a b => writable a && writable b
  | .shift op sz a _ => plainShift op && sz.long && writable a
  | .un _ sz a => sz.pair && writable a
  | .imul2 _ a _ => writable a
  | .imul3 _ a _ _ => writable a
  | .signExtAcc _ => true
  | .signExtDx _ => true
  | .push _ => true
  | .pop a => writable a
  | .leave => true
  | .setcc _ a => writable a
  | .cmovcc _ _ a _ => writable a
  | .cnt op _ a _ => plainCnt op && writable a
  | .movgx _ a _ => isXmm a || writable a
  | .movqx a _ => isXmm a || writable a
  | .fmov .sd a b => xmmOrMem a && xmmOrMem b && notBothMem a b
  | .flogic _ _ a b => isXmm a && xmmOrMem b
  | .fop _ .sd a _ => isXmm a
  | .fop _ .pd a b => isXmm a && xmmOrMem b
  | .round .pd a b _ => isXmm a && xmmOrMem b
  | .ucomi .sd _ _ => true
  | .cvtsi2f .sd _ a _ => isXmm a
  | .cvttf2si .sd _ a _ => writable a
  | .syscall => true
  | .int3 => true
  | I => I.isControl

theorem rm_writable {rel o a} (h : rm rel o = some a) : writable a = true := by
  cases o <;> simp only [rm, Option.bind_eq_bind, Option.bind_eq_some_iff, Option.pure_def, Option.some.injEq] at h <;>
    obtain ⟨_, _, rfl⟩ := h <;> rfl

theorem xm_xmmOrMem {rel o a} (h : xm rel o = some a) : xmmOrMem a = true := by
  cases o <;> simp only [xm, Option.bind_eq_bind, Option.bind_eq_some_iff, Option.pure_def, Option.some.injEq] at h <;>
    obtain ⟨_, _, rfl⟩ := h <;> rfl

theorem alu_usual {rel op sz a b I} (h : Spec.alu rel op sz a b = some I) : usual I = true := by
  simp only [Spec.alu, Option.bind_eq_bind, Option.bind_eq_some_iff] at h
  obtain ⟨x, hx, y, hy, h⟩ := h
  split at h
  · cases h; exact rm_writable hx
  · cases h

theorem mov_usual {rel sz a b I} (h : Spec.mov rel sz a b = some I) : usual I = true := by
  simp only [Spec.mov, Option.bind_eq_bind, Option.bind_eq_some_iff] at h
  obtain ⟨x, hx, y, hy, h⟩ := h
  split at h
  · cases h; exact rm_writable hx
  · cases h

theorem movq_usual {rel a b I} (h : Spec.movq rel a b = some I) : usual I = true := by
  unfold Spec.movq at h
  split at h <;> first
    | cases h; done
    | (simp only [Option.bind_eq_bind, Option.bind_eq_some_iff, Option.pure_def, Option.some.injEq] at h
       first
       | (obtain ⟨_, _, _, _, rfl⟩ := h; rfl)
       | (obtain ⟨_, _, rfl⟩ := h; rfl))

theorem ext_usual {rel f a b I} (hf : ∀ r o, usual (f (.gpr r) o) = true) (h : Spec.ext rel f a b = some I) : usual I = true := by
  simp only [Spec.ext, Option.bind_eq_bind, Option.bind_eq_some_iff, Option.pure_def, Option.some.injEq] at h
  obtain ⟨r, _, o, _, rfl⟩ := h
  exact hf r o

theorem shift_usual {rel op sz a b I} (hop : plainShift op = true) (hs : (size sz).long = true) (h : Spec.shift rel op sz a b = some I) : usual I = true := by
  simp only [Spec.shift, Option.bind_eq_bind, Option.bind_eq_some_iff] at h
  obtain ⟨x, hx, y, hy, h⟩ := h
  have hw := rm_writable hx
  split at h
  · cases h; simp [usual, hop, hs, hw]
  · split at h
    · cases h; simp [usual, hop, hs, hw]
    · cases h
  · cases h

theorem xchg_usual {rel sz a b I} (h : Spec.xchg rel sz a b = some I) : usual I = true := by
  simp only [Spec.xchg, Option.bind_eq_bind, Option.bind_eq_some_iff] at h
  obtain ⟨x, hx, y, hy, h⟩ := h
  have h1 := rm_writable hx
  have h2 := rm_writable hy
  split at h
  · cases h
  · cases h; simp [usual, h1, h2]
  · split at h
    · split at h <;> cases h <;> simp [usual, h1, h2]
    · cases h; simp [usual, h1, h2]
  · cases h; simp [usual, h1, h2]

theorem un_usual {rel op sz a I} (hs : sz.pair = true) (h : Spec.un rel op sz a = some I) : usual I = true := by
  simp only [Spec.un, Option.bind_eq_bind, Option.bind_eq_some_iff, Option.pure_def, Option.some.injEq] at h
  obtain ⟨x, hx, rfl⟩ := h
  simp [usual, hs, rm_writable hx]

theorem sse_usual {rel f a b I} (hf : ∀ r o, xmmOrMem o = true → usual (f (.xmm r) o) = true) (h : Spec.sse rel f a b = some I) : usual I = true := by
  simp only [Spec.sse, Option.bind_eq_bind, Option.bind_eq_some_iff, Option.pure_def, Option.some.injEq] at h
  obtain ⟨r, _, o, ho, rfl⟩ := h
  exact hf r o (xm_xmmOrMem ho)

theorem shift_width {sz d a b} (h : ∃ m, shift_op sz d a b = .ok m) : (size sz).long = true := by
  obtain ⟨m, h⟩ := h
  cases sz <;> first | rfl | (cases a <;> cases b <;> cases h)

theorem meaning_usual {rel i I} (ha : Accepted i) (h : meaning rel i = some I) : usual I = true := by
  obtain ⟨m, ha⟩ := ha
  cases i
  all_goals first
    | cases h; done
    | cases h; rfl
    | exact movq_usual h
    | exact mov_usual h
    | exact alu_usual h
    | exact ext_usual (fun _ _ => rfl) h
    | exact xchg_usual h
    | exact un_usual rfl h
    | exact shift_usual rfl (shift_width ⟨_, ha⟩) h
    | exact sse_usual (fun _ _ h => h) h
    | exact sse_usual (fun _ _ _ => rfl) h
    | skip
  case Imul a b =>
    cases a with
    | ind _ => cases h
    | imm _ => cases h
    | reg r =>
      simp only [meaning, Option.bind_eq_bind, Option.bind_eq_some_iff] at h
      obtain ⟨x, _, y, _, h⟩ := h
      split at h <;> cases h <;> rfl
  case Lea a b =>
    cases a <;> cases b <;> first
      | cases h; done
      | (simp only [meaning, Option.bind_eq_bind, Option.bind_eq_some_iff, Option.pure_def, Option.some.injEq] at h
         obtain ⟨_, _, _, _, rfl⟩ := h; rfl)
  case Jmp a | Call a =>
    cases a <;> first
      | cases h; rfl
      | (simp only [meaning, Option.bind_eq_bind, Option.bind_eq_some_iff, Option.pure_def, Option.some.injEq] at h
         obtain ⟨_, _, rfl⟩ := h; rfl)
  case Movsd a b =>
    simp only [meaning, Option.bind_eq_bind, Option.bind_eq_some_iff] at h
    obtain ⟨x, hx, y, hy, h⟩ := h
    split at h
    · rename_i hb
      cases h
      simp [usual, xm_xmmOrMem hx, xm_xmmOrMem hy, hb]
    · cases h
  case Roundpd a b m => exact sse_usual (f := fun d s => .round .pd d s (m.setWidth 8)) (fun _ _ h => by simp [usual, isXmm, h]) h
  case Xorps | Andpd | Xorpd | Sqrtpd => exact sse_usual (fun _ _ h => by simp [usual, isXmm, h]) h
  case Testq | Testb | Cvtsi2sdq | Cvttsd2siq =>
    simp only [meaning, Option.bind_eq_bind, Option.bind_eq_some_iff, Option.pure_def, Option.some.injEq] at h
    obtain ⟨_, _, _, _, rfl⟩ := h
    rfl
  case Setcc | Pushq | Popq =>
    simp only [meaning, Option.bind_eq_bind, Option.bind_eq_some_iff, Option.pure_def, Option.some.injEq] at h
    obtain ⟨x, hx, rfl⟩ := h
    first | rfl | exact rm_writable hx
  case Cmovcc sz c a b =>
    simp only [meaning, Option.bind_eq_bind] at h
    split at h
    · cases h
    · simp only [Option.bind_eq_some_iff, Option.pure_def, Option.some.injEq] at h
      obtain ⟨_, _, _, _, rfl⟩ := h
      rfl
  case Lzcnt | Tzcnt | Popcnt =>
    simp only [meaning, Option.bind_eq_bind] at h
    split at h
    · cases h
    · simp only [Option.bind_eq_some_iff, Option.pure_def, Option.some.injEq] at h
      obtain ⟨_, _, _, _, rfl⟩ := h
      rfl

theorem encoded_usual {rel i I} (ha : Accepted i) (h : encoded rel i = some I) : usual I = true := by
  unfold encoded at h
  split at h
  · simp only [Option.bind_eq_bind, Option.bind_eq_some_iff, Option.pure_def, Option.some.injEq] at h
    obtain ⟨_, _, _, _, rfl⟩ := h
    rfl
  · exact meaning_usual ha h
  · exact meaning_usual ha h

/-! Operands with absolute addresses. -/

theorem ea_absolute (a : Addr) (next d) : (a.absolute next).ea next d = a.ea next d := by
  unfold Addr.absolute
  split
  · rename_i h
    simp only [Addr.ea, h]
    ac_rfl
  · rfl

theorem value_absolute (o : Opd) (next d) : (o.absolute next).value next d = o.value next d := by
  cases o <;> first | rfl | (simp only [Opd.absolute, Opd.value, ea_absolute])

theorem read_absolute (o : Opd) (sz : Size) (next d) : (o.absolute next).read sz next d = o.read sz next d := by
  rw [Opd.read, Opd.read, value_absolute]

theorem write_some {o : Opd} (h : writable o = true) (sz : Size) (next v d) : ∃ d', (o.absolute next).write sz next v d = some d' := by
  cases o <;> first | cases h; done | exact ⟨_, rfl⟩

theorem read128_some {o : Opd} (h : xmmOrMem o = true) (next d) :
    (∃ v, (o.absolute next).read128 next d = some v) ↔ ¬ o.misaligned next d := by
  cases o with
  | xmm r => exact ⟨fun _ h => h, fun _ => ⟨_, rfl⟩⟩
  | mem a =>
    simp only [Opd.absolute, Opd.read128, Opd.misaligned, ea_absolute]
    have e : (a.ea next d) &&& 15 = 0 ↔ (a.ea next d).toNat % 16 = 0 := by
      rw [← BitVec.toNat_inj, BitVec.toNat_and, show BitVec.toNat (15 : BitVec 64) = 2 ^ 4 - 1 from rfl, Nat.and_two_pow_sub_one_eq_mod]
      exact Iff.rfl
    split
    · rename_i h; exact ⟨fun _ h' => h' (e.1 h), fun _ => ⟨_, rfl⟩⟩
    · rename_i h
      refine ⟨?_, fun h' => absurd (e.2 (Decidable.not_not.1 h')) h⟩
      rintro ⟨_, h'⟩
      cases h'
  | _ => cases h

theorem effect_some {I : Instr} {next : BitVec 64} {d : Data} (h : usual I = true) (hc : I.isControl = false) :
    (∃ p, effect (I.absolute next) next d = some p) ↔ ¬ Stops next d I := by
  have none : ∀ {I : Instr}, (∀ next d, ¬ Stops next d I) → (∃ p, effect (I.absolute next) next d = some p) →
      ((∃ p, effect (I.absolute next) next d = some p) ↔ ¬ Stops next d I) := fun h1 h2 => ⟨fun _ => h1 _ _, fun _ => h2⟩
  have bnd : ∀ {α β : Type} {o : Option α} {f : α → Option β}, (∃ x, o = some x) → (∀ x, ∃ y, f x = some y) → ∃ y, o.bind f = some y := by
    rintro α β o f ⟨x, rfl⟩ h
    exact h x
  cases I
  case un op sz a =>
    simp only [usual, Bool.and_eq_true] at h
    have hw := write_some (o := a) h.2 sz next
    cases op
    case not => exact none (fun _ _ h => by cases h) (bnd (hw _ _) fun _ => ⟨_, rfl⟩)
    case neg => exact none (fun _ _ h => by cases h) (bnd (hw _ _) fun _ => ⟨_, rfl⟩)
    case inc => exact none (fun _ _ h => by cases h) (bnd (hw _ _) fun _ => ⟨_, rfl⟩)
    case dec => exact none (fun _ _ h => by cases h) (bnd (hw _ _) fun _ => ⟨_, rfl⟩)
    case mul =>
      refine none (fun _ _ h => by cases h) ?_
      simp only [Instr.absolute, effect, h.1, if_true]
      exact ⟨_, rfl⟩
    case imul =>
      refine none (fun _ _ h => by cases h) ?_
      simp only [Instr.absolute, effect, h.1, if_true]
      exact ⟨_, rfl⟩
    case div =>
      simp only [Instr.absolute, effect, h.1, true_and, read_absolute]
      constructor
      · rintro ⟨p, hp⟩ hs
        split at hp
        · rename_i hq
          cases hs with
          | div0 h0 => exact hq.1 (BitVec.eq_of_toNat_eq (by simpa using h0))
          | div h1 => omega
        · cases hp
      · intro hs
        rw [if_pos]
        · exact ⟨_, rfl⟩
        · refine ⟨fun h0 => hs (.div0 (by rw [h0]; rfl)), ?_⟩
          by_cases hq : (d.wide sz.bits).toNat / (a.read sz next d).toNat < 2 ^ sz.bits
          · exact hq
          · exact absurd (.div (by omega)) hs
    case idiv =>
      simp only [Instr.absolute, effect, h.1, true_and, read_absolute]
      have key : ∀ q : Int, (BitVec.ofInt sz.bits q).toInt = q ↔ -2 ^ (sz.bits - 1) ≤ q ∧ q < 2 ^ (sz.bits - 1) := by
        intro q
        cases sz <;> simp only [Size.bits, BitVec.toInt_ofInt, Int.bmod_def] <;> omega
      constructor
      · rintro ⟨p, hp⟩ hs
        split at hp
        · rename_i hq
          have hk := (key _).1 hq.2
          cases hs with
          | idiv0 h0 => exact hq.1 (BitVec.eq_of_toNat_eq (by simpa using h0))
          | idivLow h1 => omega
          | idivHigh h1 => omega
        · cases hp
      · intro hs
        rw [if_pos]
        · exact ⟨_, rfl⟩
        · refine ⟨fun h0 => hs (.idiv0 (by rw [h0]; rfl)), (key _).2 ⟨?_, ?_⟩⟩
          · exact Int.not_lt.1 fun h => hs (.idivLow h)
          · exact Int.not_le.1 fun h => hs (.idivHigh h)
  case flogic op ty a b =>
    cases a <;> simp only [usual, isXmm, Bool.false_and, Bool.true_and, Bool.false_eq_true] at h
    have e := read128_some h next d
    refine ⟨fun ⟨p, hp⟩ hs => ?_, fun hs => bnd (e.2 fun hm => hs (.logic hm)) fun _ => ⟨_, rfl⟩⟩
    cases hs with | logic hm =>
    obtain ⟨v, hv, _⟩ := Option.bind_eq_some_iff.1 hp
    exact e.1 ⟨v, hv⟩ hm
  case fop op ty a b =>
    cases ty
    case pd =>
      cases a <;> simp only [usual, isXmm, Bool.false_and, Bool.true_and, Bool.false_eq_true] at h
      have e := read128_some h next d
      refine ⟨fun ⟨p, hp⟩ hs => ?_, fun hs => bnd (e.2 fun hm => hs (.packed hm)) fun _ => ⟨_, rfl⟩⟩
      cases hs with | packed hm =>
      obtain ⟨v, hv, _⟩ := Option.bind_eq_some_iff.1 hp
      exact e.1 ⟨v, hv⟩ hm
    case sd =>
      cases a <;> first | cases h; done | exact none (fun _ _ h => by cases h) ⟨_, rfl⟩
    all_goals cases h
  case round ty a b m =>
    cases ty
    case pd =>
      cases a <;> simp only [usual, isXmm, Bool.false_and, Bool.true_and, Bool.false_eq_true] at h
      have e := read128_some h next d
      refine ⟨fun ⟨p, hp⟩ hs => ?_, fun hs => bnd (e.2 fun hm => hs (.round hm)) fun _ => ⟨_, rfl⟩⟩
      cases hs with | round hm =>
      obtain ⟨v, hv, _⟩ := Option.bind_eq_some_iff.1 hp
      exact e.1 ⟨v, hv⟩ hm
    all_goals cases h
  case syscall => exact ⟨fun ⟨_, h⟩ => (by cases h), fun h => absurd .syscall h⟩
  case int3 => exact ⟨fun ⟨_, h⟩ => (by cases h), fun h => absurd .int3 h⟩
  all_goals refine none (fun _ _ h => by cases h) ?_
  all_goals first
    | cases h; done
    | cases hc; done
    | exact ⟨_, rfl⟩
    | exact bnd (write_some h _ _ _ _) fun _ => ⟨_, rfl⟩
    | skip
  case alu op sz a b =>
    cases op
    case cmp => exact ⟨_, rfl⟩
    all_goals exact bnd (write_some h _ _ _ _) fun _ => ⟨_, rfl⟩
  case xchg sz a b =>
    simp only [usual, Bool.and_eq_true] at h
    cases a <;> first
      | cases h.1; done
      | exact bnd (write_some h.2 _ _ _ _) fun _ => ⟨_, rfl⟩
      | exact bnd ⟨_, rfl⟩ fun _ => bnd (write_some h.2 _ _ _ _) fun _ => ⟨_, rfl⟩
  case shift op sz a b =>
    simp only [usual, Bool.and_eq_true] at h
    simp only [Instr.absolute, effect, h.1.2, if_true]
    split
    · exact bnd (write_some h.2 _ _ _ _) fun _ => ⟨_, rfl⟩
    · cases op <;> first
        | cases h.1.1; done
        | exact bnd ⟨_, rfl⟩ fun _ => bnd (write_some h.2 _ _ _ _) fun _ => ⟨_, rfl⟩
  case cnt op sz a b =>
    simp only [usual, Bool.and_eq_true] at h
    cases op <;> first
      | cases h.1; done
      | exact bnd (write_some h.2 _ _ _ _) fun _ => ⟨_, rfl⟩
  case fmov ty a b =>
    cases ty <;> first | cases h; done | skip
    cases a <;> cases b <;> first | cases h; done | exact ⟨_, rfl⟩
  case ucomi ty a b =>
    cases ty <;> first | cases h; done | exact ⟨_, rfl⟩
  case cvtsi2f ty sz a b =>
    cases ty <;> first | cases h; done | skip
    cases a <;> first | cases h; done | exact ⟨_, rfl⟩
  case cvttf2si ty sz a b =>
    cases ty <;> first | cases h; done | skip
    exact bnd (write_some h _ _ _ _) fun _ => ⟨_, rfl⟩
  case movgx sz a b =>
    cases a <;> first | cases h; done | exact ⟨_, rfl⟩ | exact bnd (write_some (o := .gpr _) rfl _ _ _ _) fun _ => ⟨_, rfl⟩ | exact bnd (write_some (o := .mem _) rfl _ _ _ _) fun _ => ⟨_, rfl⟩
  case movqx a b =>
    cases a <;> first | cases h; done | exact ⟨_, rfl⟩ | exact bnd (write_some (o := .gpr _) rfl _ _ _ _) fun _ => ⟨_, rfl⟩ | exact bnd (write_some (o := .mem _) rfl _ _ _ _) fun _ => ⟨_, rfl⟩

/-- Instructions that are executed in all states. -/
def quiet : Instr → Bool
  | .un .div _ _ => false
  | .un .idiv _ _ => false
  | .flogic _ _ _ (.mem _) => false
  | .fop _ .pd _ (.mem _) => false
  | .round .pd _ (.mem _) _ => false
  | .syscall => false
  | .int3 => false
  | _ => true

theorem quiet_stops {I next d} (h : quiet I = true) : ¬ Stops next d I := by
  intro hs
  cases hs
  case logic hm => rename_i b; cases b <;> first | cases h; done | exact hm
  case packed hm => rename_i b; cases b <;> first | cases h; done | exact hm
  case round hm => rename_i b _; cases b <;> first | cases h; done | exact hm
  all_goals cases h

theorem alu_quiet {rel op sz a b I} (h : Spec.alu rel op sz a b = some I) : quiet I = true := by
  simp only [Spec.alu, Option.bind_eq_bind, Option.bind_eq_some_iff] at h
  obtain ⟨x, hx, y, hy, h⟩ := h
  split at h <;> cases h; rfl

theorem mov_quiet {rel sz a b I} (h : Spec.mov rel sz a b = some I) : quiet I = true := by
  simp only [Spec.mov, Option.bind_eq_bind, Option.bind_eq_some_iff] at h
  obtain ⟨x, hx, y, hy, h⟩ := h
  split at h <;> cases h; rfl

theorem movq_quiet {rel a b I} (h : Spec.movq rel a b = some I) : quiet I = true := by
  unfold Spec.movq at h
  split at h <;> first
    | cases h; done
    | (simp only [Option.bind_eq_bind, Option.bind_eq_some_iff, Option.pure_def, Option.some.injEq] at h
       first
       | (obtain ⟨_, _, _, _, rfl⟩ := h; rfl)
       | (obtain ⟨_, _, rfl⟩ := h; rfl))

theorem ext_quiet {rel f a b I} (hf : ∀ r o, quiet (f (.gpr r) o) = true) (h : Spec.ext rel f a b = some I) : quiet I = true := by
  simp only [Spec.ext, Option.bind_eq_bind, Option.bind_eq_some_iff, Option.pure_def, Option.some.injEq] at h
  obtain ⟨r, _, o, _, rfl⟩ := h
  exact hf r o

theorem shift_quiet {rel op sz a b I} (h : Spec.shift rel op sz a b = some I) : quiet I = true := by
  simp only [Spec.shift, Option.bind_eq_bind, Option.bind_eq_some_iff] at h
  obtain ⟨x, hx, y, hy, h⟩ := h
  split at h
  · cases h; rfl
  · split at h <;> cases h; rfl
  · cases h

theorem xchg_quiet {rel sz a b I} (h : Spec.xchg rel sz a b = some I) : quiet I = true := by
  simp only [Spec.xchg, Option.bind_eq_bind, Option.bind_eq_some_iff] at h
  obtain ⟨x, hx, y, hy, h⟩ := h
  split at h
  · cases h
  · cases h; rfl
  · split at h
    · split at h <;> cases h <;> rfl
    · cases h; rfl
  · cases h; rfl

theorem sse_quiet {rel f a b I} (hf : ∀ r o, quiet (f (.xmm r) o) = true) (h : Spec.sse rel f a b = some I) : quiet I = true := by
  simp only [Spec.sse, Option.bind_eq_bind, Option.bind_eq_some_iff, Option.pure_def, Option.some.injEq] at h
  obtain ⟨r, _, o, ho, rfl⟩ := h
  exact hf r o

theorem sse_quiet_reg {rel f a r I} (hf : ∀ r q, quiet (f (.xmm r) (.xmm q)) = true) (h : Spec.sse rel f a (.xmm r) = some I) : quiet I = true := by
  simp only [Spec.sse, Spec.xm, Option.bind_eq_bind, Option.bind_eq_some_iff, Option.pure_def, Option.some.injEq] at h
  obtain ⟨r, _, o, ⟨q, _, rfl⟩, rfl⟩ := h
  exact hf r q

theorem meaning_quiet {rel i I} (hq : mayStop i = false) (h : meaning rel i = some I) : quiet I = true := by
  cases i
  all_goals first
    | cases h; done
    | cases hq; done
    | cases h; rfl
    | exact movq_quiet h
    | exact mov_quiet h
    | exact alu_quiet h
    | exact ext_quiet (fun _ _ => rfl) h
    | exact xchg_quiet h
    | exact shift_quiet h
    | exact sse_quiet (fun _ _ => rfl) h
    | skip
  case Imul a b =>
    cases a with
    | ind _ => cases h
    | imm _ => cases h
    | reg r =>
      simp only [meaning, Option.bind_eq_bind, Option.bind_eq_some_iff] at h
      obtain ⟨x, _, y, _, h⟩ := h
      split at h <;> cases h <;> rfl
  case Lea a b =>
    cases a <;> cases b <;> first
      | cases h; done
      | (simp only [meaning, Option.bind_eq_bind, Option.bind_eq_some_iff, Option.pure_def, Option.some.injEq] at h
         obtain ⟨_, _, _, _, rfl⟩ := h; rfl)
  case Jmp a | Call a =>
    cases a <;> first
      | cases h; rfl
      | (simp only [meaning, Option.bind_eq_bind, Option.bind_eq_some_iff, Option.pure_def, Option.some.injEq] at h
         obtain ⟨_, _, rfl⟩ := h; rfl)
  case Movsd a b =>
    simp only [meaning, Option.bind_eq_bind, Option.bind_eq_some_iff] at h
    obtain ⟨x, hx, y, hy, h⟩ := h
    split at h <;> cases h; rfl
  case Roundpd a b m =>
    cases b with
    | ind _ => cases hq
    | xmm r => exact sse_quiet_reg (f := fun d s => .round .pd d s (m.setWidth 8)) (fun _ _ => rfl) h
  case Xorps a b | Andpd a b | Xorpd a b | Sqrtpd a b =>
    cases b with
    | ind _ => cases hq
    | xmm r => exact sse_quiet_reg (fun _ _ => rfl) h
  case Testq | Testb | Cvtsi2sdq | Cvttsd2siq =>
    simp only [meaning, Option.bind_eq_bind, Option.bind_eq_some_iff, Option.pure_def, Option.some.injEq] at h
    obtain ⟨_, _, _, _, rfl⟩ := h
    rfl
  case Negq | Setcc | Pushq | Popq =>
    simp only [meaning, Spec.un, Option.bind_eq_bind, Option.bind_eq_some_iff, Option.pure_def, Option.some.injEq] at h
    obtain ⟨x, hx, rfl⟩ := h
    rfl
  case Cmovcc | Lzcnt | Tzcnt | Popcnt =>
    simp only [meaning, Option.bind_eq_bind] at h
    split at h
    · cases h
    · simp only [Option.bind_eq_some_iff, Option.pure_def, Option.some.injEq] at h
      obtain ⟨_, _, _, _, rfl⟩ := h
      rfl

theorem encoded_quiet {rel i I} (hq : mayStop i = false) (h : encoded rel i = some I) : quiet I = true := by
  unfold encoded at h
  split at h
  · simp only [Option.bind_eq_bind, Option.bind_eq_some_iff, Option.pure_def, Option.some.injEq] at h
    obtain ⟨_, _, _, _, rfl⟩ := h
    rfl
  · exact meaning_quiet hq h
  · exact meaning_quiet hq h

/-- A state with all registers equal to `x`. -/
def flatData (x : BitVec 64) : Data :=
  { gpr := fun _ => x, xmm := fun _ => 0, flags := ⟨false, false, false, false, false⟩, mem := fun _ => 0 }

theorem addr_misaligned {rel m a} (h : addr rel m = some a) : ∃ next d, (Opd.mem a).misaligned next d := by
  have key : ∀ a : Addr, a.base ≠ .none →
      ¬ (a.ea 0 (flatData 0)).toNat % 16 = 0 ∨ ¬ (a.ea 1 (flatData 1)).toNat % 16 = 0 := by
    rintro ⟨b, idx, dsp⟩ hb
    have h1 : b ≠ .none := hb
    have e0 : (Addr.mk b idx dsp).ea 0 (flatData 0) = dsp := by
      cases b <;> first | exact absurd rfl h1 | (cases idx <;> simp [Addr.ea, flatData])
    have e1 : ∃ k : Nat, 0 < k ∧ k < 16 ∧ (Addr.mk b idx dsp).ea 1 (flatData 1) = BitVec.ofNat 64 k + dsp := by
      have hb1 : ∀ t : BitVec 64, (Addr.mk b idx dsp).ea 1 (flatData 1) = 1 + (match idx with | none => 0 | some (_, sc) => (1 : BitVec 64) <<< sc.toNat) + dsp := by
        intro t; cases b <;> first | exact absurd rfl h1 | (cases idx <;> rfl)
      rw [hb1 0]
      cases idx with
      | none => exact ⟨1, by decide, by decide, by simp⟩
      | some p =>
        obtain ⟨r, sc⟩ := p
        have : ∀ sc : BitVec 2, ∃ k, k < 16 ∧ 0 < k ∧ (1 + (1 : BitVec 64) <<< sc.toNat) = BitVec.ofNat 64 k := by decide
        obtain ⟨k, h1, h2, h3⟩ := this sc
        exact ⟨k, h2, h1, by simp only [h3]⟩
    obtain ⟨k, hk, hk', e1⟩ := e1
    rw [e0, e1, BitVec.toNat_add, BitVec.toNat_ofNat]
    omega
  have hb : a.base ≠ .none := by
    unfold addr at h
    split at h
    · split at h
      · cases h; intro h; cases h
      · simp only [Option.bind_eq_bind, Option.bind_eq_some_iff, Option.pure_def, Option.some.injEq] at h
        obtain ⟨_, _, rfl⟩ := h
        intro h; cases h
    · simp only [Option.bind_eq_bind, Option.bind_eq_some_iff] at h
      obtain ⟨_, _, _, _, h⟩ := h
      split at h
      · cases h
      · split at h
        · cases h; intro h; cases h
        · cases h
  rcases key a hb with h | h
  · exact ⟨_, _, h⟩
  · exact ⟨_, _, h⟩

theorem read_zero {rel o a} (h : rm rel o = some a) (sz : Size) (next) : (a.read sz next (flatData 0)).toNat = 0 := by
  have e : a.value next (flatData 0) = 0 := by
    cases o <;> simp only [rm, Option.bind_eq_bind, Option.bind_eq_some_iff, Option.pure_def, Option.some.injEq] at h <;>
      obtain ⟨_, _, rfl⟩ := h
    · rfl
    · simp [Opd.value, Data.load64, flatData]
  rw [Opd.read, e]
  simp

theorem sse_misaligned {rel f a m I} (h : Spec.sse rel f a (.ind m) = some I)
    (hf : ∀ {next d r o}, o.misaligned next d → Stops next d (f (.xmm r) o)) : ∃ next d, Stops next d I := by
  simp only [Spec.sse, Spec.xm, Option.bind_eq_bind, Option.bind_eq_some_iff, Option.pure_def, Option.some.injEq] at h
  obtain ⟨r, _, o, ⟨q, hq, rfl⟩, rfl⟩ := h
  obtain ⟨next, d, h⟩ := addr_misaligned hq
  exact ⟨next, d, hf h⟩

theorem may_stops {rel i I} (hm : mayStop i = true) (h : encoded rel i = some I) : ∃ next d, Stops next d I := by
  unfold mayStop at hm
  split at hm
  case h_1 | h_2 =>
    simp only [encoded, meaning, Spec.un, Option.bind_eq_bind, Option.bind_eq_some_iff, Option.pure_def, Option.some.injEq] at h
    obtain ⟨o, ho, rfl⟩ := h
    exact ⟨0, _, .idiv0 (read_zero ho _ 0)⟩
  case h_3 | h_4 =>
    simp only [encoded, meaning, Spec.un, Option.bind_eq_bind, Option.bind_eq_some_iff, Option.pure_def, Option.some.injEq] at h
    obtain ⟨o, ho, rfl⟩ := h
    exact ⟨0, _, .div0 (read_zero ho _ 0)⟩
  case h_5 | h_6 | h_7 => exact sse_misaligned h .logic
  case h_8 => exact sse_misaligned h .packed
  case h_9 => exact sse_misaligned (f := fun d s => .round .pd d s _) h .round
  case h_10 => cases h; exact ⟨0, flatData 0, .syscall⟩
  case h_11 => cases h; exact ⟨0, flatData 0, .int3⟩
  case h_12 => cases hm

end Monoasm
