import Verif.Proofs.Parse3
/-
  The parser accepts exactly the grammar: statements and programs.
-/

namespace Monoasm
open Spec

section
variable {X : RustExpr}

/-- Correct reading of the operands by an arm. -/
def ArmOk (X : RustExpr) (e : String × P TInst) : Prop := ∀ ts i rest, e.2 ts = .ok (i, rest) →
  e.1 ∈ spellings i ∧ ∃ tss, Each (operandSyn X i) tss ∧ ts = commas tss ++ .punct ';' :: rest

theorem arm2 {α β} {p : P α} {q : P β} {G H} (h : Reads p G) (h' : Reads q H) {f : α → β → TInst} {s}
    (hs : ∀ a b, s ∈ spellings (f a b)) (ho : ∀ a b, operandSyn X (f a b) = [G a, H b]) : ArmOk X (s, parse2 p q f) := by
  intro ts i rest hp
  obtain ⟨a, b, ta, tb, rfl, h1, h2, rfl⟩ := (parse2_ok h h').1 hp
  exact ⟨hs a b, [ta, tb], by rw [ho]; exact ⟨h1, h2, trivial⟩, by simp [commas]⟩

theorem arm1 {α} {p : P α} {G} (h : Reads p G) {f : α → TInst} {s}
    (hs : ∀ a, s ∈ spellings (f a)) (ho : ∀ a, operandSyn X (f a) = [G a]) : ArmOk X (s, parse1 p f) := by
  intro ts i rest hp
  obtain ⟨a, ta, rfl, h1, rfl⟩ := (parse1_ok h).1 hp
  exact ⟨hs a, [ta], by rw [ho]; exact ⟨h1, trivial⟩, by simp [commas]⟩

theorem arm0 {j : TInst} {s} (hs : s ∈ spellings j) (ho : operandSyn X j = []) : ArmOk X (s, parse0 j) := by
  intro ts i rest hp
  obtain ⟨rfl, rfl⟩ := parse0_ok.1 hp
  exact ⟨hs, [], by rw [ho]; trivial, by simp [commas]⟩

theorem arm3 {α β γ} {p : P α} {q : P β} {r : P γ} {G H K} (h : Reads p G) (h' : Reads q H) (h'' : Reads r K)
    {f : α → β → γ → TInst} {s} (hs : ∀ a b c, s ∈ spellings (f a b c))
    (ho : ∀ a b c, operandSyn X (f a b c) = [G a, H b, K c]) : ArmOk X (s, parse3 p q r f) := by
  intro ts i rest hp
  obtain ⟨a, b, c, ta, tb, tc, rfl, h1, h2, h3, rfl⟩ := (parse3_ok h h' h'').1 hp
  exact ⟨hs a b c, [ta, tb, tc], by rw [ho]; exact ⟨h1, h2, h3, trivial⟩, by simp [commas]⟩

theorem armDq : ArmOk X ("dq", parseDq) := by
  intro ts i rest hp
  rcases parseDq_ok.1 hp with ⟨b, ta, rfl, h, rfl⟩ | ⟨v, ta, rfl, h, rfl⟩
  · exact ⟨by simp [spellings], [ta], ⟨h, trivial⟩, rfl⟩
  · exact ⟨by simp [spellings], [ta], ⟨h, trivial⟩, rfl⟩

theorem armsCons {e l} (h : ArmOk X e) (t : ∀ e ∈ l, ArmOk X e) : ∀ e' ∈ e :: l, ArmOk X e' := by
  intro e' he
  rcases List.mem_cons.1 he with rfl | he
  · exact h
  · exact t _ he

/-- Finds the spelling in the list. -/
macro "mem_spellings" : tactic => `(tactic| first
  | exact List.Mem.head _ | exact List.Mem.tail _ (List.Mem.head _)
  | exact List.Mem.tail _ (List.Mem.tail _ (List.Mem.head _)))

section
-- keep the unifier from comparing parsers by unfolding them
attribute [local irreducible] rmOperand rmiOperand riOperand register xmOperand xmm movOperand dest
  immediate P.ident parse0 parse1 parse2 parse3 parseDq

set_option maxHeartbeats 1000000 in
set_option maxRecDepth 10000 in
theorem arms_ok (hX : Takes X) : ∀ e ∈ mnemonics X, ArmOk X e := by
  have rm := reads_rm hX
  have rmi := reads_rmi hX
  have ri := reads_ri hX
  have reg := reads_register hX
  have xm := reads_xm hX
  have xmm := reads_xmm
  have mov := reads_mov hX
  have dst := reads_dest hX
  unfold mnemonics
  repeat refine armsCons (by first
    | exact arm2 rm rmi (fun _ _ => by mem_spellings) (fun _ _ => rfl)
    | exact arm2 rm ri (fun _ _ => by mem_spellings) (fun _ _ => rfl)
    | exact arm2 xmm xm (fun _ _ => by mem_spellings) (fun _ _ => rfl)
    | exact arm2 reg rm (fun _ _ => by mem_spellings) (fun _ _ => rfl)
    | exact arm1 reads_label (fun _ => by mem_spellings) (fun _ => rfl)
    | exact arm0 (by mem_spellings) rfl
    | exact arm1 rm (fun _ => by mem_spellings) (fun _ => rfl)
    | exact arm2 rm rm (fun _ _ => by mem_spellings) (fun _ _ => rfl)
    | exact arm2 reg xm (fun _ _ => by mem_spellings) (fun _ _ => rfl)
    | exact arm2 rmi rmi (fun _ _ => by mem_spellings) (fun _ _ => rfl)
    | exact arm2 mov mov (fun _ _ => by mem_spellings) (fun _ _ => rfl)
    | exact arm2 xm xm (fun _ _ => by mem_spellings) (fun _ _ => rfl)
    | exact arm2 xmm rm (fun _ _ => by mem_spellings) (fun _ _ => rfl)
    | exact arm1 dst (fun _ => by mem_spellings) (fun _ => rfl)
    | exact arm3 xmm xm reads_immediate (fun _ _ _ => by mem_spellings) (fun _ _ _ => rfl)
    | exact armDq) ?_
  intro x hx
  cases hx

end

theorem parseOperands_sound (hX : Takes X) {s ts i rest} (h : parseOperands X s ts = .ok (i, rest)) :
    s ∈ spellings i ∧ ∃ tss, Each (operandSyn X i) tss ∧ ts = commas tss ++ .punct ';' :: rest := by
  unfold parseOperands at h
  cases e : (mnemonics X).lookup s with
  | some p =>
    rw [e] at h
    exact arms_ok hX _ (lookup_mem e) _ _ _ h
  | none =>
    rw [e] at h
    by_cases h1 : startsWith s "cmov" = true
    · simp only [h1, if_true] at h
      obtain ⟨n, c, sz, h2, h3, rfl, h4⟩ := cmov_parse h h1
      have : ArmOk X ("cmov" ++ n ++ suffix sz, parse2 (register X) (rmOperand X) (.Cmovcc sz c)) :=
        arm2 (reads_register hX) (reads_rm hX)
          (fun _ _ => by simp only [spellings, h3, if_false]; exact List.mem_map.2 ⟨n, h2, rfl⟩) (fun _ _ => rfl)
      exact this _ _ _ h4
    · by_cases h2 : startsWith s "set" = true
      · simp only [h1, h2, if_true] at h
        obtain ⟨n, c, h3, rfl, h4⟩ := set_parse h h2
        have : ArmOk X ("set" ++ n, parse1 (rmOperand X) (.Setcc c)) :=
          arm1 (reads_rm hX) (fun _ => by simp only [spellings]; exact List.mem_map.2 ⟨n, h3, rfl⟩) (fun _ => rfl)
        exact this _ _ _ h4
      · simp only [h1, h2] at h
        exact absurd h (by simp [P.err])

/-- The arm for an instruction. -/
def parserOf (X : RustExpr) : TInst → P TInst
  | .Label _ => P.err
  | .F64 _ => parseDq
  | .I64 _ => parseDq
  | .Movq _ _ => parse2 (movOperand X) (movOperand X) .Movq
  | .Movl _ _ => alu X .Movl
  | .Movw _ _ => alu X .Movw
  | .Movb _ _ => alu X .Movb
  | .Movsxl _ _ => regRm X .Movsxl
  | .Movzxw _ _ => regRm X .Movzxw
  | .Movsxw _ _ => regRm X .Movsxw
  | .Movzxb _ _ => regRm X .Movzxb
  | .Movsxb _ _ => regRm X .Movsxb
  | .Add sz _ _ => alu X (.Add sz)
  | .Sub sz _ _ => alu X (.Sub sz)
  | .Adc sz _ _ => alu X (.Adc sz)
  | .Sbb sz _ _ => alu X (.Sbb sz)
  | .And sz _ _ => alu X (.And sz)
  | .Or sz _ _ => alu X (.Or sz)
  | .Xor sz _ _ => alu X (.Xor sz)
  | .Cmp sz _ _ => alu X (.Cmp sz)
  | .Xchg sz _ _ => parse2 (rmOperand X) (rmOperand X) (.Xchg sz)
  | .Negq _ => parse1 (rmOperand X) .Negq
  | .Shl sz _ _ => shift X (.Shl sz)
  | .Shr sz _ _ => shift X (.Shr sz)
  | .Sal sz _ _ => shift X (.Sal sz)
  | .Sar sz _ _ => shift X (.Sar sz)
  | .Rol sz _ _ => shift X (.Rol sz)
  | .Ror sz _ _ => shift X (.Ror sz)
  | .Imul _ _ => parse2 (rmiOperand X) (rmiOperand X) .Imul
  | .Idiv _ => parse1 (rmOperand X) .Idiv
  | .Idivl _ => parse1 (rmOperand X) .Idivl
  | .Div _ => parse1 (rmOperand X) .Div
  | .Divl _ => parse1 (rmOperand X) .Divl
  | .Lea _ _ => parse2 (rmOperand X) (rmOperand X) .Lea
  | .Testq _ _ => shift X .Testq
  | .Testb _ _ => shift X .Testb
  | .Setcc c _ => parse1 (rmOperand X) (.Setcc c)
  | .Cmovcc sz c _ _ => parse2 (register X) (rmOperand X) (.Cmovcc sz c)
  | .Cqo => parse0 .Cqo
  | .Cdq => parse0 .Cdq
  | .Movsd _ _ => parse2 (xmOperand X) (xmOperand X) .Movsd
  | .Addsd _ _ => sse X .Addsd
  | .Subsd _ _ => sse X .Subsd
  | .Mulsd _ _ => sse X .Mulsd
  | .Divsd _ _ => sse X .Divsd
  | .Xorps _ _ => sse X .Xorps
  | .UComIsd _ _ => sse X .UComIsd
  | .Minsd _ _ => sse X .Minsd
  | .Maxsd _ _ => sse X .Maxsd
  | .Andpd _ _ => sse X .Andpd
  | .Xorpd _ _ => sse X .Xorpd
  | .Roundpd _ _ _ => parse3 xmm (xmOperand X) immediate .Roundpd
  | .Cvtsi2sdq _ _ => parse2 xmm (rmOperand X) .Cvtsi2sdq
  | .Cvttsd2siq _ _ => parse2 (register X) (xmOperand X) .Cvttsd2siq
  | .Sqrtpd _ _ => sse X .Sqrtpd
  | .Sqrtsd _ _ => sse X .Sqrtsd
  | .Pushq _ => parse1 (rmOperand X) .Pushq
  | .Popq _ => parse1 (rmOperand X) .Popq
  | .Jmp _ => parse1 (dest X) .Jmp
  | .Jcc c _ => parse1 P.ident (.Jcc c)
  | .Call _ => parse1 (dest X) .Call
  | .Leave => parse0 .Leave
  | .Ret => parse0 .Ret
  | .Syscall => parse0 .Syscall
  | .Lzcnt sz _ _ => regRm X (.Lzcnt sz)
  | .Tzcnt sz _ _ => regRm X (.Tzcnt sz)
  | .Popcnt sz _ _ => regRm X (.Popcnt sz)
  | .Int3 => parse0 .Int3

set_option maxRecDepth 10000 in
theorem parseOperands_eq {i : TInst} {s} (h : s ∈ spellings i) : parseOperands X s = parserOf X i := by
  cases i
  case Setcc c a =>
    obtain ⟨n, hn, rfl⟩ := List.mem_map.1 h
    exact parse_set hn
  case Cmovcc sz c a b =>
    simp only [spellings] at h
    split at h
    · cases h
    · rename_i hsz
      obtain ⟨n, hn, rfl⟩ := List.mem_map.1 h
      exact parse_cmov hn hsz
  case Jcc c l =>
    cases c <;> simp [spellings, condNames] at h
    all_goals
      first
        | (subst h; rfl)
        | (rcases h with rfl | rfl <;> rfl)
        | (rcases h with rfl | rfl | rfl <;> rfl)
  all_goals first
    | (simp only [spellings, List.mem_cons, List.not_mem_nil, or_false] at h; subst h; rfl)
    | (simp only [spellings, List.mem_cons, List.not_mem_nil, or_false] at h; rcases h with rfl | rfl <;> rfl)
    | (rename_i sz _ _; cases sz <;> simp [spellings, suffix] at h <;>
        first
        | (subst h; rfl)
        | (rcases h with rfl | rfl <;> rfl))
    | simp [spellings] at h

theorem each1 {P tss} (h : Each [P] tss) : ∃ t, tss = [t] ∧ P t := by
  rcases tss with - | ⟨t, - | ⟨t2, tss⟩⟩
  · exact absurd h id
  · exact ⟨t, rfl, h.1⟩
  · exact absurd h.2 id

theorem each2 {P Q tss} (h : Each [P, Q] tss) : ∃ t u, tss = [t, u] ∧ P t ∧ Q u := by
  rcases tss with - | ⟨t, tss⟩
  · exact absurd h id
  · obtain ⟨u, rfl, h'⟩ := each1 h.2
    exact ⟨t, u, rfl, h.1, h'⟩

theorem each3 {P Q R tss} (h : Each [P, Q, R] tss) : ∃ t u v, tss = [t, u, v] ∧ P t ∧ Q u ∧ R v := by
  rcases tss with - | ⟨t, tss⟩
  · exact absurd h id
  · obtain ⟨u, v, rfl, h'⟩ := each2 h.2
    exact ⟨t, u, v, rfl, h.1, h'⟩

theorem each0 {tss} (h : Each [] tss) : tss = [] := by
  rcases tss with - | ⟨t, tss⟩
  · rfl
  · exact absurd h id

theorem parserOf_complete (hX : Takes X) {i : TInst} {s tss rest} (hs : s ∈ spellings i) (h : Each (operandSyn X i) tss) :
    parserOf X i (commas tss ++ .punct ';' :: rest) = .ok (i, rest) := by
  have rm := reads_rm hX
  have rmi := reads_rmi hX
  have ri := reads_ri hX
  have reg := reads_register hX
  have xm := reads_xm hX
  have xmm := reads_xmm
  have mov := reads_mov hX
  have dst := reads_dest hX
  cases i
  case Label => cases hs
  case F64 =>
    obtain ⟨t, rfl, h1⟩ := each1 h
    exact parseDq_ok.2 (.inl ⟨_, t, rfl, h1, rfl⟩)
  case I64 =>
    obtain ⟨t, rfl, h1⟩ := each1 h
    exact parseDq_ok.2 (.inr ⟨_, t, rfl, h1, rfl⟩)
  case Roundpd =>
    obtain ⟨t, u, v, rfl, h1, h2, h3⟩ := each3 h
    exact (parse3_ok xmm xm reads_immediate).2 ⟨_, _, _, t, u, v, rfl, h1, h2, h3, by simp [commas]⟩
  all_goals first
    | (obtain rfl := each0 h
       exact parse0_ok.2 ⟨rfl, rfl⟩)
    | (obtain ⟨t, rfl, h1⟩ := each1 h
       first
        | exact (parse1_ok rm).2 ⟨_, t, rfl, h1, by simp [commas]⟩
        | exact (parse1_ok dst).2 ⟨_, t, rfl, h1, by simp [commas]⟩
        | exact (parse1_ok reads_label).2 ⟨_, t, rfl, h1, by simp [commas]⟩)
    | (obtain ⟨t, u, rfl, h1, h2⟩ := each2 h
       first
        | exact (parse2_ok rm rmi).2 ⟨_, _, t, u, rfl, h1, h2, by simp [commas]⟩
        | exact (parse2_ok rm ri).2 ⟨_, _, t, u, rfl, h1, h2, by simp [commas]⟩
        | exact (parse2_ok rm rm).2 ⟨_, _, t, u, rfl, h1, h2, by simp [commas]⟩
        | exact (parse2_ok reg rm).2 ⟨_, _, t, u, rfl, h1, h2, by simp [commas]⟩
        | exact (parse2_ok reg xm).2 ⟨_, _, t, u, rfl, h1, h2, by simp [commas]⟩
        | exact (parse2_ok rmi rmi).2 ⟨_, _, t, u, rfl, h1, h2, by simp [commas]⟩
        | exact (parse2_ok mov mov).2 ⟨_, _, t, u, rfl, h1, h2, by simp [commas]⟩
        | exact (parse2_ok xm xm).2 ⟨_, _, t, u, rfl, h1, h2, by simp [commas]⟩
        | exact (parse2_ok xmm xm).2 ⟨_, _, t, u, rfl, h1, h2, by simp [commas]⟩
        | exact (parse2_ok xmm rm).2 ⟨_, _, t, u, rfl, h1, h2, by simp [commas]⟩)

/-- The sequence begins, and not with `:`. -/
def Starts (ts : List Tok) : Prop := ∃ t r, ts = t :: r ∧ t ≠ .punct ':'

theorem starts_reg {a ts} (h : RegSyn X a ts) : Starts ts := by
  cases h <;> exact ⟨_, _, rfl, by simp⟩
theorem starts_mem {a ts} (h : MemSyn X a ts) : Starts ts := by
  cases h; exact ⟨_, _, rfl, by simp⟩
theorem starts_imm {a ts} (h : ImmSyn a ts) : Starts ts := by
  cases h <;> exact ⟨_, _, rfl, by simp⟩
theorem starts_xmm {a ts} (h : XmmSyn a ts) : Starts ts := by
  cases h <;> exact ⟨_, _, rfl, by simp⟩
theorem starts_rm {a ts} (h : RmSyn X a ts) : Starts ts := by
  cases a; exact starts_reg h; exact starts_mem h
theorem starts_rmi {a ts} (h : RmiSyn X a ts) : Starts ts := by
  cases a; exact starts_imm h; exact starts_reg h; exact starts_mem h
theorem starts_xm {a ts} (h : XmSyn X a ts) : Starts ts := by
  cases a; exact starts_xmm h; exact starts_mem h
theorem starts_mov {a ts} (h : MovSyn X a ts) : Starts ts := by
  cases a with
  | imm i o =>
    cases o with
    | none => exact starts_imm h
    | some sz => obtain ⟨_, ts', rfl, _⟩ := h; exact ⟨_, _, rfl, by simp⟩
  | reg r => exact starts_reg h
  | xmm r => exact starts_xmm h
  | ind r => exact starts_mem h
theorem starts_dest {a ts} (h : DestSyn X a ts) : Starts ts := by
  cases h
  case ind h => exact starts_mem h
  all_goals exact ⟨_, _, rfl, by simp⟩
theorem starts_lit {a s ts} (h : LitSyn a s ts) : Starts ts := by
  cases h <;> exact ⟨_, _, rfl, by simp⟩
theorem starts_float {a ts} (h : FloatSyn a ts) : Starts ts := by
  cases h <;> exact ⟨_, _, rfl, by simp⟩

theorem starts_operand {i : TInst} {p ps} (h : operandSyn X i = p :: ps) {ts} (ht : p ts) : Starts ts := by
  cases i <;> cases h
  case F64 => exact starts_float ht
  case I64 => obtain ⟨_, _, h, _⟩ := ht; exact starts_lit h
  case Jcc => cases ht; exact ⟨_, _, rfl, by simp⟩
  all_goals first
    | exact starts_rm ht
    | exact starts_reg ht
    | exact starts_xmm ht
    | exact starts_xm ht
    | exact starts_mov ht
    | exact starts_rmi ht
    | exact starts_dest ht

/-- Operands of an instruction never begin with `:`. -/
theorem operands_start {i : TInst} {tss} (h : Each (operandSyn X i) tss) (r) : Starts (commas tss ++ .punct ';' :: r) := by
  cases e : operandSyn X i with
  | nil =>
    rw [e] at h
    rw [each0 h]
    exact ⟨_, _, rfl, by simp⟩
  | cons p ps =>
    rw [e] at h
    rcases tss with - | ⟨ts, tss⟩
    · exact absurd h id
    · obtain ⟨t, r', rfl, ht⟩ := starts_operand e h.1
      cases tss with
      | nil => exact ⟨_, _, rfl, ht⟩
      | cons => exact ⟨_, _, rfl, ht⟩

theorem parseInst_ok (hX : Takes X) {ts i rest} :
    parseInst X ts = .ok (i, rest) ↔ ∃ pre, ts = pre ++ rest ∧ InstSyn X i pre := by
  have e1 : ∀ {l r}, parseInst X (.ident l :: .punct ':' :: r) = .ok (.Label l, r) := fun {l r} => rfl
  have e2 : ∀ {s r}, (∀ r', r ≠ .punct ':' :: r') → parseInst X (.ident s :: r) = parseOperands X s r := by
    intro s r h
    have : P.peekPunct ':' r = .ok (false, r) := by
      unfold P.peekPunct
      rcases r with - | ⟨t, r⟩
      · rfl
      · cases t with
        | punct c =>
          have hc : c ≠ ':' := by rintro rfl; exact h _ rfl
          simp [hc]
        | _ => rfl
    unfold parseInst
    rw [P.bind_eq]
    simp only [P.ident]
    rw [P.bind_eq, this]
    rfl
  constructor
  · intro h
    rcases ts with - | ⟨t, ts⟩
    · exact absurd h (by simp [parseInst, P.bind_eq, P.ident])
    · cases t with
      | ident s =>
        by_cases hl : ∃ r, ts = .punct ':' :: r
        · obtain ⟨r, rfl⟩ := hl
          rw [e1] at h
          cases h
          exact ⟨[.ident s, .punct ':'], rfl, .label⟩
        · rw [e2 (fun r' h => hl ⟨r', h⟩)] at h
          obtain ⟨h1, tss, h2, rfl⟩ := parseOperands_sound hX h
          exact ⟨.ident s :: (commas tss ++ [.punct ';']), by simp, .inst h1 h2⟩
      | _ => exact absurd h (by simp [parseInst, P.bind_eq, P.ident])
  · rintro ⟨pre, rfl, h⟩
    cases h with
    | label => exact e1
    | @inst _ name tss h1 h2 =>
      have e3 : parseOperands X name (commas tss ++ .punct ';' :: rest) = .ok (i, rest) := by
        rw [parseOperands_eq h1]
        exact parserOf_complete hX h1 h2
      rw [show (.ident name :: (commas tss ++ [.punct ';'])) ++ rest = .ident name :: (commas tss ++ .punct ';' :: rest) by simp,
        e2 ?_, e3]
      intro r' hr
      obtain ⟨t, r, h3, h4⟩ := operands_start h2 rest
      rw [hr] at h3
      simp only [List.cons.injEq] at h3
      exact h4 h3.1.symm

theorem instSyn_ne {i ts} (h : InstSyn X i ts) : ∃ s r, ts = .ident s :: r := by
  cases h <;> exact ⟨_, _, rfl⟩

theorem parseLoop_ok (hX : Takes X) {n ts is} (hn : ts.length ≤ n) : parseLoop X n ts = .ok is ↔ InstsSyn X is ts := by
  induction n generalizing ts is with
  | zero =>
    obtain rfl : ts = [] := List.eq_nil_of_length_eq_zero (by omega)
    constructor
    · intro h
      cases h
      exact .nil
    · intro h
      generalize e : ([] : List Tok) = ts at h
      cases h with
      | nil => rfl
      | cons h1 h2 =>
        obtain ⟨s, r, rfl⟩ := instSyn_ne h1
        cases e
  | succ n ih =>
    rcases ts with - | ⟨t, ts⟩
    · constructor
      · intro h
        cases h
        exact .nil
      · intro h
        generalize e : ([] : List Tok) = ts at h
        cases h with
        | nil => rfl
        | cons h1 h2 =>
          obtain ⟨s, r, rfl⟩ := instSyn_ne h1
          cases e
    · constructor
      · intro h
        simp only [parseLoop] at h
        cases e : parseInst X (t :: ts) with
        | error e' => rw [e] at h; cases h
        | ok p =>
          obtain ⟨i, rest⟩ := p
          rw [e] at h
          obtain ⟨pre, e1, h1⟩ := (parseInst_ok hX).1 e
          obtain ⟨s, r, rfl⟩ := instSyn_ne h1
          have hl : rest.length ≤ n := by
            have := congrArg List.length e1
            simp at this hn
            omega
          cases e' : parseLoop X n rest with
          | error _ => simp only [e'] at h; cases h
          | ok is' =>
            simp only [e'] at h
            cases h
            rw [e1]
            exact .cons h1 ((ih hl).1 e')
      · intro h
        generalize e : t :: ts = ts' at h
        cases h with
        | nil => cases e
        | @cons i is pre rest h1 h2 =>
          have e1 := (parseInst_ok (rest := rest) hX).2 ⟨pre, rfl, h1⟩
          obtain ⟨s, r, rfl⟩ := instSyn_ne h1
          have hl : rest.length ≤ n := by
            have := congrArg List.length e
            simp at this hn
            omega
          rw [List.cons_append] at e1 ⊢
          simp only [parseLoop]
          rw [e1]
          simp only [(ih hl).2 h2]

theorem parseInsts_ok (hX : Takes X) {ts is} : parseInsts X ts = .ok is ↔ InstsSyn X is ts :=
  parseLoop_ok hX (Nat.le_refl _)

end

end Monoasm
