import Verif.Proofs.Parse
/-
  The parser accepts exactly the grammar: memory operands and operands.
-/

namespace Monoasm
open Spec

section
variable {X : RustExpr}

/-- `indAddrBody` after the base register. -/
def addrRest (X : RustExpr) (base : Register (List Tok)) : P (IndAddr (List Tok) String) := do
  if ← P.peekPunct '-' then
    P.punct '-'
    let d ← parseDisp X
    return { base, scale := .none, disp := d.neg }
  else if ← P.peekPunct '+' then
    P.punct '+'
    if ← P.peekIdent then
      let ident ← P.ident
      match ← checkRegister X ident with
      | some reg =>
        let scale ← parseScale
        let disp ← parseTail X
        return { base, scale := .s1 scale reg, disp }
      | none => return { base, scale := .none, disp := .label ident }
    else
      let disp ← parseDisp X
      return { base, scale := .none, disp }
  else return { base, scale := .none, disp := .imm 0 }

theorem indAddrBody_eq : indAddrBody X = register X >>= addrRest X := rfl

theorem regSyn_head {r ts} (h : RegSyn X r ts) : ∃ s ts', ts = .ident s :: ts' ∧ ¬ NotReg s := by
  cases h with
  | name h => exact ⟨_, _, rfl, fun hn => hn.2 _ h⟩
  | expr h => exact ⟨_, _, rfl, fun hn => hn.1 rfl⟩

theorem optDisp_star {d r} : ¬ OptDispSyn X d (.punct '*' :: r) := by
  intro h
  cases h with
  | some h =>
    obtain ⟨ts', h | h⟩ := dispSyn_head h <;> simp at h

theorem addrRest_ok (hX : Takes X) {b ts a} : addrRest X b ts = .ok (a, []) ↔
    (∃ d, a = ⟨b, .none, d⟩ ∧ OptDispSyn X d ts ∧ ∀ l, ts = [.punct '+', .ident l] → NotReg l)
    ∨ ∃ i k d ti tk td, a = ⟨b, .s1 k i, d⟩ ∧ ts = .punct '+' :: (ti ++ tk ++ td) ∧ RegSyn X i ti ∧ ScaleSyn k tk ∧ OptDispSyn X d td := by
  rcases ts with - | ⟨t, ts⟩
  · constructor
    · intro h
      cases h
      exact .inl ⟨_, rfl, .none, by simp⟩
    · rintro (⟨d, rfl, h, _⟩ | ⟨_, _, _, _, _, _, _, h, _⟩)
      · cases h with
        | none => rfl
        | some h => obtain ⟨_, h | h⟩ := dispSyn_head h <;> simp at h
      · simp at h
  have hother : (∀ c, t = .punct c → c ≠ '+' ∧ c ≠ '-') → (addrRest X b (t :: ts) = .ok (a, []) ↔
    (∃ d, a = ⟨b, .none, d⟩ ∧ OptDispSyn X d (t :: ts) ∧ ∀ l, (t :: ts) = [.punct '+', .ident l] → NotReg l)
    ∨ ∃ i k d ti tk td, a = ⟨b, .s1 k i, d⟩ ∧ (t :: ts) = .punct '+' :: (ti ++ tk ++ td) ∧ RegSyn X i ti ∧ ScaleSyn k tk ∧ OptDispSyn X d td) := by
    intro ht
    constructor
    · intro h
      exfalso
      revert h
      cases t with
      | punct c => have := ht c rfl; simp [addrRest, P.bind_eq, P.peekPunct, this.1, this.2, P.pure_eq]
      | _ => simp [addrRest, P.bind_eq, P.peekPunct, P.pure_eq]
    · rintro (⟨d, rfl, h, _⟩ | ⟨_, _, _, _, _, _, _, h, _⟩)
      · cases h with
        | some h =>
          obtain ⟨_, h | h⟩ := dispSyn_head h
          · simp only [List.cons.injEq] at h; exact absurd rfl (ht _ h.1).1
          · simp only [List.cons.injEq] at h; exact absurd rfl (ht _ h.1).2
      · simp only [List.cons.injEq] at h
        exact absurd rfl (ht _ h.1).1
  by_cases ht : ∀ c, t = .punct c → c ≠ '+' ∧ c ≠ '-'
  · exact hother ht
  clear hother
  have : t = .punct '+' ∨ t = .punct '-' := by
    cases t with
    | punct c => simp at ht; by_cases h : c = '+' <;> simp_all
    | _ => simp at ht
  clear ht
  rcases this with rfl | rfl
  · -- `+`
    rcases ts with - | ⟨t, ts⟩
    · constructor
      · intro h
        exact absurd h (by simp [addrRest, P.bind_eq, P.peekPunct, P.punct, P.peekIdent, parseDisp, P.peekGroup, P.peekInt, P.err])
      · rintro (⟨d, rfl, h, _⟩ | ⟨_, _, _, _, _, _, _, h, h2, _⟩)
        · cases h with
          | some h => 
            cases h with
            | plus h => cases h
        · obtain ⟨s, ts', rfl, _⟩ := regSyn_head h2
          simp at h
    by_cases hid : ∃ s, t = .ident s
    · obtain ⟨s, rfl⟩ := hid
      have e : addrRest X b (.punct '+' :: .ident s :: ts) = (do
          match ← checkRegister X s with
          | some reg =>
            let scale ← parseScale
            let disp ← parseTail X
            return { base := b, scale := .s1 scale reg, disp }
          | none => return { base := b, scale := .none, disp := .label s } : P (IndAddr (List Tok) String)) ts := rfl
      rw [e, P.bind_ok]
      constructor
      · rintro ⟨o, ts', h1, h2⟩
        cases o with
        | none =>
          obtain ⟨rfl, hn⟩ := checkRegister_none.1 h1
          simp only [P.pure_ok] at h2
          obtain ⟨rfl, rfl⟩ := h2
          refine .inl ⟨_, rfl, .some .plusLabel, ?_⟩
          intro l h
          simp at h
          exact h ▸ hn
        | some r =>
          obtain ⟨pre, h3, h4⟩ := (checkRegister_some hX).1 h1
          simp only [P.bind_ok, P.pure_ok, parseScale_ok] at h2
          obtain ⟨k, ts1, ⟨tk, rfl, h5, h6⟩, d, ts2, h7, rfl, rfl⟩ := h2
          rw [parseTail_ok hX] at h7
          exact .inr ⟨r, k, d, pre, tk, ts1, rfl, by rw [h3]; simp, h4, h5, h7⟩
      · rintro (⟨d, rfl, h, hn⟩ | ⟨i, k, d, ti, tk, td, rfl, h, h2, h3, h4⟩)
        · cases h with
          | some h =>
            cases h with
            | plus h => cases h
            | plusLabel =>
              exact ⟨none, [], checkRegister_none.2 ⟨rfl, hn _ rfl⟩, rfl⟩
        · simp only [List.cons.injEq, true_and] at h
          refine ⟨some i, tk ++ td, (checkRegister_some hX).2 ⟨ti, by rw [h, List.append_assoc], h2⟩, ?_⟩
          simp only [P.bind_ok, P.pure_ok, parseScale_ok]
          refine ⟨k, td, ⟨tk, rfl, h3, ?_⟩, d, [], (parseTail_ok hX).2 h4, rfl, rfl⟩
          rintro _ r rfl
          exact optDisp_star h4
    · have e : addrRest X b (.punct '+' :: t :: ts) = (do
          let disp ← parseDisp X
          return { base := b, scale := .none, disp } : P (IndAddr (List Tok) String)) (t :: ts) := by
        cases t with
        | ident s => exact absurd ⟨s, rfl⟩ hid
        | _ => rfl
      rw [e]
      simp only [P.bind_ok, P.pure_ok, parseDisp_ok hX]
      constructor
      · rintro ⟨d, ts', ⟨pre, h1, h2⟩, rfl, rfl⟩
        rw [List.append_nil] at h1
        subst h1
        refine .inl ⟨d, rfl, .some h2, ?_⟩
        intro l h
        simp at h
        exact absurd ⟨_, h.1⟩ hid
      · rintro (⟨d, rfl, h, hn⟩ | ⟨i, k, d, ti, tk, td, rfl, h, h2, h3, h4⟩)
        · cases h with
          | some h => exact ⟨d, [], ⟨_, by simp, h⟩, rfl, rfl⟩
        · obtain ⟨s, ts', rfl, _⟩ := regSyn_head h2
          simp at h
          exact absurd ⟨_, h.1⟩ hid
  · -- `-`
    have e : addrRest X b (.punct '-' :: ts) = (do
        let d ← parseDisp X
        return { base := b, scale := .none, disp := d.neg } : P (IndAddr (List Tok) String)) ts := rfl
    rw [e]
    simp only [P.bind_ok, P.pure_ok, parseDisp_ok hX]
    constructor
    · rintro ⟨d, ts', ⟨pre, h1, h2⟩, rfl, rfl⟩
      rw [List.append_nil] at h1
      subst h1
      exact .inl ⟨d.neg, rfl, .some (dispSyn_neg h2), by simp⟩
    · rintro (⟨d, rfl, h, hn⟩ | ⟨i, k, d, ti, tk, td, rfl, h, h2, h3, h4⟩)
      · cases h with
        | some h =>
          obtain ⟨d', rfl, h'⟩ := dispSyn_of_neg h
          exact ⟨d', [], ⟨_, by simp, h'⟩, rfl, rfl⟩
      · simp at h

theorem indAddrBody_ok (hX : Takes X) {ts a} : indAddrBody X ts = .ok (a, []) ↔ AddrSyn X a ts := by
  rw [indAddrBody_eq, P.bind_ok]
  constructor
  · rintro ⟨b, ts', h1, h2⟩
    obtain ⟨pre, rfl, h0⟩ := (register_ok hX).1 h1
    rcases (addrRest_ok hX).1 h2 with ⟨d, rfl, h3, h4⟩ | ⟨i, k, d, ti, tk, td, rfl, rfl, h3, h4, h5⟩
    · exact .disp h0 h3 h4
    · exact .index h0 h3 h4 h5
  · intro h
    cases h with
    | disp h1 h2 h3 => exact ⟨_, _, (register_ok hX).2 ⟨_, rfl, h1⟩, (addrRest_ok hX).2 (.inl ⟨_, rfl, h2, h3⟩)⟩
    | index h1 h2 h3 h4 =>
      exact ⟨_, _, (register_ok hX).2 ⟨_, rfl, h1⟩, (addrRest_ok hX).2 (.inr ⟨_, _, _, _, _, _, rfl, rfl, h2, h3, h4⟩)⟩

theorem indAddr_ok (hX : Takes X) {ts a rest} : indAddr X ts = .ok (a, rest) ↔ ∃ pre, ts = pre ++ rest ∧ MemSyn X a pre := by
  unfold indAddr
  rw [P.within_ok]
  constructor
  · rintro ⟨g, rfl, h⟩
    exact ⟨_, rfl, .mk ((indAddrBody_ok hX).1 h)⟩
  · rintro ⟨pre, rfl, h⟩
    cases h with
    | mk h => exact ⟨_, rfl, (indAddrBody_ok hX).2 h⟩

/-- The token after an operand. -/
def Ends (rest : List Tok) : Prop := ∃ c r, rest = .punct c :: r ∧ (c = ',' ∨ c = ';')

/-- The parser `p` of operands accepts the grammar `G`. -/
structure Reads {α : Type} (p : P α) (G : α → List Tok → Prop) : Prop where
  complete : ∀ {a pre rest}, G a pre → Ends rest → p (pre ++ rest) = .ok (a, rest)
  sound : ∀ {ts a rest}, p ts = .ok (a, rest) → ∃ pre, ts = pre ++ rest ∧ G a pre

theorem reads_register (hX : Takes X) : Reads (register X) (RegSyn X) :=
  ⟨fun h _ => (register_ok hX).2 ⟨_, rfl, h⟩, (register_ok hX).1⟩

theorem reads_xmm : Reads xmm XmmSyn := ⟨fun h _ => xmm_ok.2 ⟨_, rfl, h⟩, xmm_ok.1⟩

theorem reads_label : Reads P.ident LabelSyn :=
  ⟨by rintro a pre rest rfl _; rfl, fun h => ⟨_, P.ident_ok.1 h, rfl⟩⟩

theorem isSingle_ends {t rest} (h : Ends rest) : isSingle (t :: rest) = .ok (true, t :: rest) := by
  obtain ⟨c, r, rfl, h⟩ := h
  simp [isSingle, h]

theorem memSyn_group {a ts} (h : MemSyn X a ts) : ∃ g, ts = [.group .bracket g] := by cases h; exact ⟨_, rfl⟩

theorem intTokens_nat (n : Nat) (suf) : intTokens n suf = [.int n suf] := by
  simp only [intTokens, Int.natAbs_natCast]
  rw [if_neg (by omega)]

/-- What the operand parsers do with a token that cannot start a literal. -/
theorem litCase {α} {k : (Int × String) → P α} {q : P α} {ts} :
    (do if (← P.peekInt) && (← isSingle) then
          let r ← P.litInt
          k r
        else q : P α) ts
      = match ts with
        | .int n suf :: .punct c :: r => if c = ',' ∨ c = ';' then k (n, suf) (.punct c :: r) else q ts
        | _ => q ts := by
  rcases ts with - | ⟨t, ts⟩
  · rfl
  · cases t with
    | int n suf =>
      rcases ts with - | ⟨t, ts⟩
      · rfl
      · cases t with
        | punct c =>
          by_cases h : c = ',' ∨ c = ';'
          · simp [P.bind_eq, P.peekInt, isSingle, h, P.litInt]
          · simp [P.bind_eq, P.peekInt, isSingle, h]
        | _ => rfl
    | punct c =>
      by_cases h : c = '-'
      · subst h
        rcases ts with - | ⟨t, ts⟩
        · rfl
        · cases t with
          | int n suf => rfl
          | _ => rfl
      · rcases ts with - | ⟨t, ts⟩
        · simp [P.bind_eq, P.peekInt, isSingle]
        · simp [P.bind_eq, P.peekInt, isSingle, h]
    | _ => rfl

theorem notIdent {α} {p q : P α} {ts} (h : ∀ s r, ts ≠ .ident s :: r) :
    (do if ← P.peekIdent then p else q : P α) ts = q ts := by
  rcases ts with - | ⟨t, ts⟩
  · rfl
  · cases t with
    | ident s => exact absurd rfl (h s ts)
    | _ => rfl

theorem reads_immediate : Reads immediate ImmSyn := by
  constructor
  · intro a pre rest h he
    cases h with
    | lit =>
      obtain ⟨c, r, rfl, h⟩ := he
      unfold immediate
      rw [litCase]
      simp [h, P.pure_eq, intTokens_nat]
    | expr => rfl
  · intro ts a rest h
    unfold immediate at h
    rw [litCase] at h
    have key : ∀ {ts}, (do if ← P.peekGroup .paren then P.group .paren else P.err : P (List Tok)) ts = .ok (a, rest) →
        ∃ pre, ts = pre ++ rest ∧ ImmSyn a pre := by
      intro ts h
      rcases ts with - | ⟨t, ts⟩
      · exact absurd h (by simp [P.bind_eq, P.peekGroup, P.err])
      · cases t with
        | group d g =>
          by_cases hd : d = .paren
          · subst hd
            cases h
            exact ⟨_, rfl, .expr⟩
          · exact absurd h (by simp [P.bind_eq, P.peekGroup, hd, P.err])
        | _ => exact absurd h (by simp [P.bind_eq, P.peekGroup, P.err])
    split at h
    · split at h
      · rw [P.pure_ok, intTokens_nat] at h
        obtain ⟨rfl, rfl⟩ := h
        exact ⟨_, rfl, .lit⟩
      · exact key h
    · exact key h

theorem reads_rm (hX : Takes X) : Reads (rmOperand X) (RmSyn X) := by
  constructor
  · intro a pre rest h he
    cases a with
    | reg r =>
      obtain ⟨s, ts, rfl, _⟩ := regSyn_head h
      show (do let r ← register X; return .reg r : P (RmOperand (List Tok) String)) _ = _
      rw [P.bind_eq, (register_ok hX).2 ⟨_, rfl, h⟩]
      rfl
    | ind a =>
      obtain ⟨g, rfl⟩ := memSyn_group h
      show (do let a ← indAddr X; return .ind a : P (RmOperand (List Tok) String)) _ = _
      rw [P.bind_eq, (indAddr_ok hX).2 ⟨_, rfl, h⟩]
      rfl
  · intro ts a rest h
    rcases ts with - | ⟨t, ts⟩
    · exact absurd h (by simp [rmOperand, P.bind_eq, P.peekGroup, P.peekIdent, P.err])
    · cases t with
      | ident s =>
        have h : (do let r ← register X; return .reg r : P (RmOperand (List Tok) String)) _ = _ := h
        simp only [P.bind_ok, P.pure_ok, register_ok hX] at h
        obtain ⟨r, _, ⟨pre, h1, h2⟩, rfl, rfl⟩ := h
        exact ⟨pre, h1, h2⟩
      | group d g =>
        by_cases hd : d = .bracket
        · subst hd
          have h : (do let a ← indAddr X; return .ind a : P (RmOperand (List Tok) String)) _ = _ := h
          simp only [P.bind_ok, P.pure_ok, indAddr_ok hX] at h
          obtain ⟨r, _, ⟨pre, h1, h2⟩, rfl, rfl⟩ := h
          exact ⟨pre, h1, h2⟩
        · exact absurd h (by simp [rmOperand, P.bind_eq, P.peekGroup, P.peekIdent, P.err, hd])
      | _ => exact absurd h (by simp [rmOperand, P.bind_eq, P.peekGroup, P.peekIdent, P.err])

theorem reads_rmi (hX : Takes X) : Reads (rmiOperand X) (RmiSyn X) := by
  have eReg : ∀ {s ts}, rmiOperand X (.ident s :: ts)
      = (do let r ← register X; return .reg r : P (RmiOperand (List Tok) String)) (.ident s :: ts) := by
    intro s ts
    simp [rmiOperand, P.bind_eq, P.peekIdent, P.ident, register]
  constructor
  · intro a pre rest h he
    cases a with
    | reg r =>
      obtain ⟨s, ts, rfl, _⟩ := regSyn_head h
      rw [List.cons_append, eReg, ← List.cons_append, P.bind_eq, (register_ok hX).2 ⟨_, rfl, h⟩]
      rfl
    | ind a =>
      obtain ⟨g, rfl⟩ := memSyn_group h
      show (do let a ← indAddr X; return .ind a : P (RmiOperand (List Tok) String)) _ = _
      rw [P.bind_eq, (indAddr_ok hX).2 ⟨_, rfl, h⟩]
      rfl
    | imm i =>
      cases h with
      | lit =>
        obtain ⟨c, r, rfl, h⟩ := he
        unfold rmiOperand
        rw [P.bind_eq]
        simp only [P.peekIdent, List.cons_append, List.nil_append, Bool.false_eq_true, if_false]
        rw [litCase]
        simp [h, P.pure_eq, intTokens_nat]
      | expr => rfl
  · intro ts a rest h
    have key : ∀ {ts}, (do
        if ← P.peekGroup .bracket then
          let a ← indAddr X
          return .ind a
        else if ← P.peekGroup .paren then
          let gr ← P.group .paren
          return .imm gr
        else P.err : P (RmiOperand (List Tok) String)) ts = .ok (a, rest) → ∃ pre, ts = pre ++ rest ∧ RmiSyn X a pre := by
      intro ts h
      rcases ts with - | ⟨t, ts⟩
      · exact absurd h (by simp [P.bind_eq, P.peekGroup, P.err])
      · cases t with
        | group d g =>
          cases d with
          | bracket =>
            have h : (do let a ← indAddr X; return .ind a : P (RmiOperand (List Tok) String)) _ = _ := h
            simp only [P.bind_ok, P.pure_ok, indAddr_ok hX] at h
            obtain ⟨r, _, ⟨pre, h1, h2⟩, rfl, rfl⟩ := h
            exact ⟨pre, h1, h2⟩
          | paren =>
            cases h
            exact ⟨_, rfl, ImmSyn.expr⟩
          | brace => exact absurd h (by simp [P.bind_eq, P.peekGroup, P.err])
        | _ => exact absurd h (by simp [P.bind_eq, P.peekGroup, P.err])
    by_cases hi : ∃ s ts', ts = .ident s :: ts'
    · obtain ⟨s, ts, rfl⟩ := hi
      rw [eReg] at h
      simp only [P.bind_ok, P.pure_ok, register_ok hX] at h
      obtain ⟨r, _, ⟨pre, h1, h2⟩, rfl, rfl⟩ := h
      exact ⟨pre, h1, h2⟩
    · unfold rmiOperand at h
      rw [notIdent (fun s r e => hi ⟨s, r, e⟩), litCase] at h
      split at h
      · split at h
        · rw [P.pure_ok, intTokens_nat] at h
          obtain ⟨rfl, rfl⟩ := h
          exact ⟨_, rfl, ImmSyn.lit⟩
        · exact key h
      · exact key h

theorem reads_ri (hX : Takes X) : Reads (riOperand X) (RiSyn X) := by
  constructor
  · intro a pre rest h he
    cases a with
    | reg r =>
      obtain ⟨s, ts, rfl, _⟩ := regSyn_head h
      show (do let r ← register X; return .reg r : P (RiOperand (List Tok))) _ = _
      rw [P.bind_eq, (register_ok hX).2 ⟨_, rfl, h⟩]
      rfl
    | imm i =>
      cases h with
      | lit =>
        obtain ⟨c, r, rfl, h⟩ := he
        unfold riOperand
        rw [P.bind_eq]
        simp only [P.peekIdent, List.cons_append, List.nil_append, Bool.false_eq_true, if_false]
        rw [litCase]
        simp [h, P.pure_eq, intTokens_nat]
      | expr => rfl
  · intro ts a rest h
    have key : ∀ {ts}, (do
        if ← P.peekGroup .paren then
          let gr ← P.group .paren
          return .imm gr
        else P.err : P (RiOperand (List Tok))) ts = .ok (a, rest) → ∃ pre, ts = pre ++ rest ∧ RiSyn X a pre := by
      intro ts h
      rcases ts with - | ⟨t, ts⟩
      · exact absurd h (by simp [P.bind_eq, P.peekGroup, P.err])
      · cases t with
        | group d g =>
          cases d with
          | paren =>
            cases h
            exact ⟨_, rfl, ImmSyn.expr⟩
          | _ => exact absurd h (by simp [P.bind_eq, P.peekGroup, P.err])
        | _ => exact absurd h (by simp [P.bind_eq, P.peekGroup, P.err])
    by_cases hi : ∃ s ts', ts = .ident s :: ts'
    · obtain ⟨s, ts, rfl⟩ := hi
      have h : (do let r ← register X; return .reg r : P (RiOperand (List Tok))) _ = _ := h
      simp only [P.bind_ok, P.pure_ok, register_ok hX] at h
      obtain ⟨r, _, ⟨pre, h1, h2⟩, rfl, rfl⟩ := h
      exact ⟨pre, h1, h2⟩
    · unfold riOperand at h
      rw [notIdent (fun s r e => hi ⟨s, r, e⟩), litCase] at h
      split at h
      · split at h
        · rw [P.pure_ok, intTokens_nat] at h
          obtain ⟨rfl, rfl⟩ := h
          exact ⟨_, rfl, ImmSyn.lit⟩
        · exact key h
      · exact key h

theorem reads_xm (hX : Takes X) : Reads (xmOperand X) (XmSyn X) := by
  constructor
  · intro a pre rest h he
    cases a with
    | xmm r =>
      obtain ⟨s, ts, rfl, hs⟩ := xmmSyn_ident h
      have e : xmOperand X (.ident s :: ts ++ rest) = (do let x ← parseXmm s; return .xmm x : P (XmOperand (List Tok) String)) (ts ++ rest) := by
        simp [xmOperand, P.bind_eq, P.peekIdent, P.ident, hs]
      rw [e, P.bind_eq, (parseXmm_ok (rest := rest) hs).2 ⟨_, (List.cons_append).symm, h⟩]
      rfl
    | ind a =>
      obtain ⟨g, rfl⟩ := memSyn_group h
      show (do let a ← indAddr X; return .ind a : P (XmOperand (List Tok) String)) _ = _
      rw [P.bind_eq, (indAddr_ok hX).2 ⟨_, rfl, h⟩]
      rfl
  · intro ts a rest h
    rcases ts with - | ⟨t, ts⟩
    · exact absurd h (by simp [xmOperand, P.bind_eq, P.peekGroup, P.peekIdent, P.err])
    · cases t with
      | ident s =>
        by_cases hs : startsWith s "xmm" = true
        · have e : xmOperand X (.ident s :: ts) = (do let x ← parseXmm s; return .xmm x : P (XmOperand (List Tok) String)) ts := by
            simp [xmOperand, P.bind_eq, P.peekIdent, P.ident, hs]
          rw [e] at h
          simp only [P.bind_ok, P.pure_ok, parseXmm_ok hs] at h
          obtain ⟨r, _, ⟨pre, h1, h2⟩, rfl, rfl⟩ := h
          exact ⟨pre, h1, h2⟩
        · exact absurd h (by simp [xmOperand, P.bind_eq, P.ident, P.peekIdent, P.err, hs])
      | group d g =>
        by_cases hd : d = .bracket
        · subst hd
          have h : (do let a ← indAddr X; return .ind a : P (XmOperand (List Tok) String)) _ = _ := h
          simp only [P.bind_ok, P.pure_ok, indAddr_ok hX] at h
          obtain ⟨r, _, ⟨pre, h1, h2⟩, rfl, rfl⟩ := h
          exact ⟨pre, h1, h2⟩
        · exact absurd h (by simp [xmOperand, P.bind_eq, P.peekGroup, P.peekIdent, P.err, hd])
      | _ => exact absurd h (by simp [xmOperand, P.bind_eq, P.peekGroup, P.peekIdent, P.err])

theorem reg_not_qword {n} (h : RegName "qword" n) : False := by
  have := regFromStr_some.2 h
  have e : regFromStr "qword" = none := by decide
  rw [e] at this
  cases this

/-- No register name begins with `xmm`. -/
theorem reg_not_xmm {s n} (h : RegName s n) : startsWith s "xmm" = false := by
  have : ∀ x ∈ regNames, ∃ c l, x.toList = c :: l ∧ c ≠ 'x' := by simp [regNames]
  have h' : ∃ c l, (lowercase s).toList = c :: l ∧ c ≠ 'x' := by
    rcases h with h | ⟨h, _⟩
    · exact this _ (List.mem_of_getElem? h)
    · exact ⟨'c', ['l'], by rw [h]; rfl, by decide⟩
  obtain ⟨c, l, h1, h2⟩ := h'
  by_cases hs : startsWith s "xmm" = true
  · obtain ⟨t, rfl⟩ := startsWith_iff.1 hs
    simp [lowercase] at h1
    rw [← h1.1] at h2
    exact absurd rfl h2
  · simpa using hs

theorem reads_mov (hX : Takes X) : Reads (movOperand X) (MovSyn X) := by
  have eReg : ∀ {s ts}, s ≠ "qword" → startsWith s "xmm" = false → movOperand X (.ident s :: ts)
      = (do let r ← register X; return .reg r : P (MovOperand (List Tok) String)) (.ident s :: ts) := by
    intro s ts h1 h2
    simp [movOperand, P.bind_eq, P.peekIdent, P.ident, h1, h2, register]
  have eXmm : ∀ {s ts}, startsWith s "xmm" = true → movOperand X (.ident s :: ts)
      = (do let x ← parseXmm s; return .xmm x : P (MovOperand (List Tok) String)) ts := by
    intro s ts h
    have h1 : s ≠ "qword" := by rintro rfl; exact absurd h (by decide)
    simp [movOperand, P.bind_eq, P.peekIdent, P.ident, h, h1]
  have eQ : ∀ {ts}, movOperand X (.ident "qword" :: ts) = (do let i ← immediate; return .imm i (some .QWORD) : P (MovOperand (List Tok) String)) ts :=
    fun {ts} => rfl
  constructor
  · intro a pre rest h he
    cases a with
    | reg r =>
      have hh : ∃ s ts, pre = .ident s :: ts ∧ s ≠ "qword" ∧ startsWith s "xmm" = false := by
        cases h with
        | @name s _ h => exact ⟨s, [], rfl, by rintro rfl; exact reg_not_qword h, reg_not_xmm h⟩
        | expr h => exact ⟨_, _, rfl, by decide, by decide⟩
      obtain ⟨s, ts, rfl, h1, h2⟩ := hh
      rw [List.cons_append, eReg h1 h2, ← List.cons_append, P.bind_eq, (register_ok hX).2 ⟨_, rfl, h⟩]
      rfl
    | xmm x =>
      obtain ⟨s, ts, rfl, hs⟩ := xmmSyn_ident h
      rw [List.cons_append, eXmm hs, P.bind_eq, (parseXmm_ok (rest := rest) hs).2 ⟨_, (List.cons_append).symm, h⟩]
      rfl
    | ind a =>
      obtain ⟨g, rfl⟩ := memSyn_group h
      show (do let a ← indAddr X; return .ind a : P (MovOperand (List Tok) String)) _ = _
      rw [P.bind_eq, (indAddr_ok hX).2 ⟨_, rfl, h⟩]
      rfl
    | imm i sz =>
      cases sz with
      | none =>
        cases h with
        | lit =>
          obtain ⟨c, r, rfl, h⟩ := he
          unfold movOperand
          rw [P.bind_eq]
          simp only [P.peekIdent, List.cons_append, List.nil_append, Bool.false_eq_true, if_false]
          rw [litCase]
          simp [h, P.pure_eq, intTokens_nat]
        | expr => rfl
      | some sz =>
        obtain ⟨rfl, ts, rfl, h⟩ := h
        rw [List.cons_append, eQ, P.bind_eq, reads_immediate.complete h he]
        rfl
  · intro ts a rest h
    have key : ∀ {ts}, (do
        if ← P.peekGroup .bracket then
          let a ← indAddr X
          return .ind a
        else if ← P.peekGroup .paren then
          let gr ← P.group .paren
          return .imm gr none
        else P.err : P (MovOperand (List Tok) String)) ts = .ok (a, rest) → ∃ pre, ts = pre ++ rest ∧ MovSyn X a pre := by
      intro ts h
      rcases ts with - | ⟨t, ts⟩
      · exact absurd h (by simp [P.bind_eq, P.peekGroup, P.err])
      · cases t with
        | group d g =>
          cases d with
          | bracket =>
            have h : (do let a ← indAddr X; return .ind a : P (MovOperand (List Tok) String)) _ = _ := h
            simp only [P.bind_ok, P.pure_ok, indAddr_ok hX] at h
            obtain ⟨r, _, ⟨pre, h1, h2⟩, rfl, rfl⟩ := h
            exact ⟨pre, h1, h2⟩
          | paren =>
            cases h
            exact ⟨_, rfl, ImmSyn.expr⟩
          | brace => exact absurd h (by simp [P.bind_eq, P.peekGroup, P.err])
        | _ => exact absurd h (by simp [P.bind_eq, P.peekGroup, P.err])
    by_cases hi : ∃ s ts', ts = .ident s :: ts'
    · obtain ⟨s, ts, rfl⟩ := hi
      by_cases hq : s = "qword"
      · subst hq
        rw [eQ] at h
        simp only [P.bind_ok, P.pure_ok] at h
        obtain ⟨i, _, h1, rfl, rfl⟩ := h
        obtain ⟨pre, rfl, h2⟩ := reads_immediate.sound h1
        exact ⟨.ident "qword" :: pre, rfl, rfl, pre, rfl, h2⟩
      · by_cases hs : startsWith s "xmm" = true
        · rw [eXmm hs] at h
          simp only [P.bind_ok, P.pure_ok, parseXmm_ok hs] at h
          obtain ⟨r, _, ⟨pre, h1, h2⟩, rfl, rfl⟩ := h
          exact ⟨pre, h1, h2⟩
        · rw [eReg hq (by simpa using hs)] at h
          simp only [P.bind_ok, P.pure_ok, register_ok hX] at h
          obtain ⟨r, _, ⟨pre, h1, h2⟩, rfl, rfl⟩ := h
          exact ⟨pre, h1, h2⟩
    · unfold movOperand at h
      rw [notIdent (fun s r e => hi ⟨s, r, e⟩), litCase] at h
      split at h
      · split at h
        · rw [P.pure_ok, intTokens_nat] at h
          obtain ⟨rfl, rfl⟩ := h
          exact ⟨_, rfl, ImmSyn.lit⟩
        · exact key h
      · exact key h

theorem reads_dest (hX : Takes X) : Reads (dest X) (DestSyn X) := by
  have eId : ∀ {s c r}, (c = ',' ∨ c = ';') → dest X (.ident s :: .punct c :: r)
      = .ok (match regFromStr s with | some n => .reg n | none => .rel s, .punct c :: r) := by
    intro s c r h
    simp only [dest, P.bind_eq, P.peekIdent, isSingle, h]
    simp only [decide_true, Bool.and_self, if_true]
    rw [P.bind_eq]
    simp only [P.ident]
    cases regFromStr s <;> rfl
  constructor
  · intro a pre rest h he
    cases h with
    | reg h =>
      obtain ⟨c, r, rfl, hc⟩ := he
      rw [List.cons_append, List.nil_append, eId hc, regFromStr_some.2 h]
    | rel h =>
      obtain ⟨c, r, rfl, hc⟩ := he
      rw [List.cons_append, List.nil_append, eId hc, regFromStr_none.2 h]
    | disp =>
      obtain ⟨c, r, rfl, hc⟩ := he
      rfl
    | ind h =>
      obtain ⟨g, rfl⟩ := memSyn_group h
      obtain ⟨c, r, rfl, hc⟩ := he
      show (do let a ← indAddr X; return .ind a : P (Dest (List Tok) String)) _ = _
      rw [P.bind_eq, (indAddr_ok hX).2 ⟨_, rfl, h⟩]
      rfl
  · intro ts a rest h
    rcases ts with - | ⟨t, ts⟩
    · exact absurd h (by simp [dest, P.bind_eq, P.peekGroup, P.peekIdent, isSingle, P.err])
    · cases t with
      | ident s =>
        have hbad : isSingle (.ident s :: ts) = .ok (false, .ident s :: ts) → ¬ dest X (.ident s :: ts) = .ok (a, rest) := by
          intro h
          simp [dest, P.bind_eq, P.peekGroup, P.peekIdent, h, P.err]
        rcases ts with - | ⟨t, ts⟩
        · exact absurd h (hbad rfl)
        · cases t with
          | punct c =>
            by_cases hc : c = ',' ∨ c = ';'
            · rw [eId hc] at h
              cases hr : regFromStr s with
              | none =>
                rw [hr] at h
                cases h
                exact ⟨[.ident s], rfl, .rel (regFromStr_none.1 hr)⟩
              | some n =>
                rw [hr] at h
                cases h
                exact ⟨[.ident s], rfl, .reg (regFromStr_some.1 hr)⟩
            · exact absurd h (hbad (by simp [isSingle, hc]))
          | _ => exact absurd h (hbad rfl)
      | group d g =>
        have e : dest X (.group d g :: ts) = (do
            if ← P.peekGroup .paren then
              let gr ← P.group .paren
              return .disp gr
            else if ← P.peekGroup .bracket then
              let a ← indAddr X
              return .ind a
            else P.err : P (Dest (List Tok) String)) (.group d g :: ts) := by
          simp [dest, P.bind_eq, P.peekGroup, P.peekIdent, isSingle]
        rw [e] at h
        cases d with
        | paren =>
          cases h
          exact ⟨_, rfl, .disp⟩
        | bracket =>
          have h : (do let a ← indAddr X; return .ind a : P (Dest (List Tok) String)) _ = _ := h
          simp only [P.bind_ok, P.pure_ok, indAddr_ok hX] at h
          obtain ⟨r, _, ⟨pre, h1, h2⟩, rfl, rfl⟩ := h
          exact ⟨pre, h1, .ind h2⟩
        | brace => exact absurd h (by simp [P.bind_eq, P.peekGroup, P.err])
      | _ => exact absurd h (by simp [dest, P.bind_eq, P.peekGroup, P.peekIdent, isSingle, P.err])

end

end Monoasm
