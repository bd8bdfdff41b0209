import Verif.Proofs.Names
import Verif.Proofs.Parse2
/-
  C40: register names.
-/

namespace Monoasm
open Spec

variable {X : RustExpr} {s t : String} {n : BitVec 8} {rest : List Tok}

/-- An identifier is read as a register operand iff it is, up to case, a name of the table, and then
    it is the register with that number. -/
theorem C40_names (hX : Takes X) :
    register X (.ident s :: rest) = .ok (.reg n, rest) ↔ ∃ name, (name, n) ∈ registerTable ∧ SameWord s name := by
  rw [← regName_iff, register_ok hX]
  constructor
  · rintro ⟨pre, h1, h2⟩
    cases h2 with
    | name h => simp only [List.cons_append, List.nil_append, List.cons.injEq, Tok.ident.injEq] at h1; rw [h1.1]; exact h
  · intro h
    exact ⟨_, rfl, .name h⟩

/-- The same for the destination of `jmp` and `call`; any other identifier there is a label. -/
theorem C40_dest (hX : Takes X) :
    (dest X (.ident s :: .punct ';' :: rest) = .ok (.reg n, .punct ';' :: rest) ↔
      ∃ name, (name, n) ∈ registerTable ∧ SameWord s name)
    ∧ ((¬ ∃ n name, (name, n) ∈ registerTable ∧ SameWord s name) →
        dest X (.ident s :: .punct ';' :: rest) = .ok (.rel s, .punct ';' :: rest)) := by
  have hr := reads_dest hX
  constructor
  · rw [← regName_iff]
    constructor
    · intro h
      obtain ⟨pre, h1, h2⟩ := hr.sound h
      cases h2 with
      | reg h => simp only [List.cons_append, List.nil_append, List.cons.injEq, Tok.ident.injEq] at h1; rw [h1.1]; exact h
    · intro h
      exact hr.complete (.reg h) ⟨_, _, rfl, .inr rfl⟩
  · intro h
    refine hr.complete (.rel fun n hn => h ?_) ⟨_, _, rfl, .inr rfl⟩
    obtain ⟨name, h1, h2⟩ := regName_iff.1 hn
    exact ⟨n, name, h1, h2⟩

/-- Two identifiers for the same register are equal up to case, except `cl` and `rcx`. -/
theorem C40_distinct (hX : Takes X) (hs : register X (.ident s :: rest) = .ok (.reg n, rest))
    (ht : register X (.ident t :: rest) = .ok (.reg n, rest)) :
    SameWord s t ∨ (SameWord s "cl" ∧ SameWord t "rcx") ∨ (SameWord s "rcx" ∧ SameWord t "cl") := by
  obtain ⟨a, h1, h2⟩ := (C40_names hX).1 hs
  obtain ⟨b, h3, h4⟩ := (C40_names hX).1 ht
  have key : ∀ p ∈ registerTable, ∀ q ∈ registerTable, p.2 = q.2 →
      p.1 = q.1 ∨ (p.1 = "cl" ∧ q.1 = "rcx") ∨ (p.1 = "rcx" ∧ q.1 = "cl") := by decide +kernel
  rcases key _ h1 _ h3 rfl with h | ⟨h, h'⟩ | ⟨h, h'⟩
  · left
    simp only at h
    subst h
    exact sameWord_trans h2 h4
  · exact .inr (.inl ⟨h ▸ h2, h' ▸ h4⟩)
  · exact .inr (.inr ⟨h ▸ h2, h' ▸ h4⟩)

/-- `R9` is register 9, `rAx` register 0, `Rip` is 16; `eax` is no register (it is a label). -/
example : register exExpr [.ident "R9", .punct ';'] = .ok (.reg 9, [.punct ';'])
    ∧ register exExpr [.ident "rAx", .punct ';'] = .ok (.reg 0, [.punct ';'])
    ∧ ¬ (∃ n name, (name, n) ∈ registerTable ∧ SameWord "eax" name)
    ∧ dest exExpr [.ident "eax", .punct ';'] = .ok (.rel "eax", [.punct ';']) := by
  have h : ¬ (∃ n name, (name, n) ∈ registerTable ∧ SameWord "eax" name) := by
    rintro ⟨n, name, h1, h2⟩
    have : RegName "eax" n := regName_iff.2 ⟨name, h1, h2⟩
    rw [← regFromStr_some] at this
    cases this
  exact ⟨rfl, rfl, h, (C40_dest (rest := []) (n := 0) takes_exExpr).2 h⟩

end Monoasm
