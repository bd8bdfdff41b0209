import Verif.Proofs.Conditions
import Verif.Proofs.Correct
/-
  C35: condition mnemonics.

  `X` is the parser of Rust expressions, `ρ` gives the values of the expressions and `σ` the labels
  held by the variables, `rel` the distances to the labels.
-/

namespace Monoasm
open Spec X86

variable {X : RustExpr} {s s' n m : String} {ops ops' rest rest' : List Tok} {i i' : TInst} {ρ : List Tok → Val} {σ : String → Nat}
  {rel : Nat → BitVec 64} {I I' : Instr} {p q : Flags → Bool}

/-- Whenever a statement with a conditional mnemonic is accepted, the instruction it denotes tests
    the condition of that name. -/
theorem C35_named (hX : Takes X) (hn : condition n = some p) (hs : Conditional n s)
    (h : parseInst X (.ident s :: ops) = .ok (i, rest)) (hm : meaning rel (i.map ρ σ) = some I) :
    ∃ c, conditionOf I = some c ∧ ∀ f, c.holds f = p f := by
  rcases parseInst_cases hX h with ⟨rfl, -⟩ | ⟨h1, tss, h2, rfl⟩
  · cases hm
  · have h' : parseOperands X s (commas tss ++ .punct ';' :: rest) = .ok (i, rest) := by
      rw [parseOperands_eq h1]; exact parserOf_complete hX h1 h2
    obtain ⟨c, hc, hn'⟩ := conditional_cases hX hn hs h'
    obtain ⟨p', hp, hh⟩ := condNames_condition hn'
    rw [hn] at hp
    cases hp
    exact ⟨cc c, by rw [conditionOf_meaning hm, condOf_map, hc]; rfl, hh⟩

/-- The machine code generated for the statement tests that condition. -/
theorem C35_encoded (hX : Takes X) (hn : condition n = some p) (hs : Conditional n s)
    (h : parseInst X (.ident s :: ops) = .ok (i, rest)) {s0 s1 la memory} (hr : Runs (i.map ρ σ) s0 s1)
    (hl : Linked s0 s1 la memory) (hne : Near la (here s1)) (hm : meaning (dist la (here s1)) (i.map ρ σ) = some I) (after) :
    ∃ c, decode (bytes memory (here s0) (here s1 - here s0) ++ after) = some (I, after) ∧ conditionOf I = some c
      ∧ ∀ f, c.holds f = p f := by
  obtain ⟨c, h1, h2⟩ := C35_named hX hn hs h hm
  refine ⟨c, faithful _ ?_ ?_ _ _ _ _ _ hr hl hne hm after, h1, h2⟩
  · intro a b m e
    rw [conditionOf_meaning hm, e] at h1
    cases h1
  · intro a b e
    rw [conditionOf_meaning hm, e] at h1
    cases h1

/-- Conversely a statement that denotes a conditional instruction has a mnemonic with the name of
    the condition tested. -/
theorem C35_only (hX : Takes X) (h : parseInst X (.ident s :: ops) = .ok (i, rest))
    (hm : meaning rel (i.map ρ σ) = some I) {c} (hc : conditionOf I = some c) :
    ∃ n p, Conditional n s ∧ condition n = some p ∧ ∀ f, c.holds f = p f := by
  rcases parseInst_cases hX h with ⟨rfl, -⟩ | ⟨h1, tss, h2, rfl⟩
  · cases hm
  · rw [conditionOf_meaning hm, condOf_map] at hc
    obtain ⟨c', h3, rfl⟩ := Option.map_eq_some_iff.1 hc
    obtain ⟨n, hn, hcond⟩ := condOf_spellings h3 h1
    obtain ⟨p, hp, hh⟩ := condNames_condition hn
    exact ⟨n, p, hcond, hp, hh⟩

/-- Names of the same condition select the same hardware condition. -/
theorem C35_alias (hX : Takes X) (hn : condition n = some p) (hm : condition m = some p)
    (hs : Conditional n s) (hs' : Conditional m s')
    (h : parseInst X (.ident s :: ops) = .ok (i, rest)) (h' : parseInst X (.ident s' :: ops') = .ok (i', rest'))
    (hI : meaning rel (i.map ρ σ) = some I) (hI' : meaning rel (i'.map ρ σ) = some I') :
    ∃ c, conditionOf I = some c ∧ conditionOf I' = some c := by
  obtain ⟨c, h1, h2⟩ := C35_named hX hn hs h hI
  obtain ⟨c', h1', h2'⟩ := C35_named hX hm hs' h' hI'
  have : c = c' := by
    have key : ∀ c c' : CC, (∀ a b d e f : Bool, c.holds ⟨a, b, d, e, f⟩ = c'.holds ⟨a, b, d, e, f⟩) → c = c' := by
      decide +kernel
    exact key c c' fun a b d e f => by rw [h2, h2']
  exact ⟨c, h1, this ▸ h1'⟩

/-- The name with an additional `n` in front selects the complement. -/
theorem C35_negated (hX : Takes X) (hn : condition n = some p) (hm : condition ("n" ++ n) = some q)
    (hs : Conditional n s) (hs' : Conditional ("n" ++ n) s')
    (h : parseInst X (.ident s :: ops) = .ok (i, rest)) (h' : parseInst X (.ident s' :: ops') = .ok (i', rest'))
    (hI : meaning rel (i.map ρ σ) = some I) (hI' : meaning rel (i'.map ρ σ) = some I') :
    ∃ c c', conditionOf I = some c ∧ conditionOf I' = some c' ∧ ∀ f, c'.holds f = !c.holds f := by
  obtain ⟨c, h1, h2⟩ := C35_named hX hn hs h hI
  obtain ⟨c', h1', h2'⟩ := C35_named hX hm hs' h' hI'
  refine ⟨c, c', h1, h1', fun f => ?_⟩
  rw [h2, h2']
  exact negated_condition hn hm f

/-- `jnae l;` tests CF; `ja` and `jna` are complementary. -/
example : ∃ i I c, parseInst exExpr [.ident "jnae", .ident "l", .punct ';'] = .ok (i, [])
    ∧ meaning (fun _ => 5) (i.map (fun _ => 0) fun _ => 7) = some I ∧ conditionOf I = some c ∧ ∀ f, c.holds f = f.cf :=
  have h : parseInst exExpr [.ident "jnae", .ident "l", .punct ';'] = .ok (.Jcc .B "l", []) := rfl
  have ⟨c, h1, h2⟩ := C35_named (rel := fun _ => 5) (ρ := fun _ => 0) (σ := fun _ => 7) takes_exExpr (n := "nae") rfl (.inl rfl) h rfl
  ⟨_, _, c, h, rfl, h1, h2⟩

example : ∃ c c', parseInst exExpr [.ident "ja", .ident "l", .punct ';'] = .ok (.Jcc .A "l", [])
    ∧ parseInst exExpr [.ident "setna", .ident "rax", .punct ';'] = .ok (.Setcc .Be (.reg (.reg 0)), [])
    ∧ conditionOf (.jcc (cc .A) 5) = some c ∧ conditionOf (.setcc (cc .Be) (.gpr 0)) = some c' ∧ ∀ f, c'.holds f = !c.holds f :=
  have h : parseInst exExpr [.ident "ja", .ident "l", .punct ';'] = .ok (.Jcc .A "l", []) := rfl
  have h' : parseInst exExpr [.ident "setna", .ident "rax", .punct ';'] = .ok (.Setcc .Be (.reg (.reg 0)), []) := rfl
  have ⟨c, c', h1, h2, h3⟩ := C35_negated (rel := fun _ => 5) (ρ := fun _ => 0) (σ := fun _ => 7) takes_exExpr (n := "a") rfl rfl
    (.inl rfl) (.inr (.inl rfl)) h h' rfl rfl
  ⟨c, c', h, h', h1, h2, h3⟩

/-- `setge rbx;` is assembled into an instruction that tests SF = OF. -/
example : ∃ i s1 I c, parseInst exExpr [.ident "setge", .ident "rbx", .punct ';'] = .ok (i, [])
    ∧ Runs (i.map (fun _ => 0) fun _ => 0) ex0 s1
    ∧ decode (bytes s1.mem (here ex0) (here s1 - here ex0)) = some (I, []) ∧ conditionOf I = some c
    ∧ ∀ f, c.holds f = (f.sf == f.of) := by
  have h : parseInst exExpr [.ident "setge", .ident "rbx", .punct ';'] = .ok (.Setcc .Ge (.reg (.reg 3)), []) := rfl
  obtain ⟨s1, h1⟩ := (correct (i := .Setcc .Ge (.reg (.reg 3))) (isArith_accepted (.setcc _ _)) (by simp) (by simp)).assembles ex0
    ⟨fun _ => 0, _, rfl⟩ (by intro n v h; cases h) (by simp [Known, Inst.mentions, Inst.labels, RmOperand.labels]) room_ex0
  have hl := linked_self h1 (by simp [Inst.mentions, Inst.labels, RmOperand.labels]) (fun _ => here s1)
  obtain ⟨c, h2, h3, h4⟩ := C35_encoded (ρ := fun _ => 0) (σ := fun _ => 0) takes_exExpr (n := "ge") rfl (.inr (.inl rfl)) h h1 hl
    (by intro l; simp) rfl []
  exact ⟨_, s1, _, c, h, h1, by simpa using h2, h3, h4⟩

end Monoasm
