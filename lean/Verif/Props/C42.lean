import Verif.Proofs.Address
import Verif.Model.Eval
import Verif.Spec.Meaning
import Verif.Proofs.Correct
/-
  C42: scale factors and signs in addresses.

  The theorems speak of the contents of the brackets of a memory operand: `tb`, `ti` are the tokens
  of the base and of the index register, `td` those of the displacement.
-/

namespace Monoasm
open Spec

variable {X : RustExpr} {b i : Register (List Tok)} {d : MDisp (List Tok) String} {tb ti td ts : List Tok} {n : Nat}
  {suf : String} {sc : MScale (List Tok)} {a a' : IndAddr (List Tok) String} {rel : Nat → BitVec 64} {ρ : List Tok → Val} {σ : String → Nat}

/-- What follows `*` in an accepted address is one of the literals 1, 2, 4, 8. -/
theorem C42_factor (hX : Takes X) (hb : RegSyn X b tb) (hi : RegSyn X i ti)
    (h : indAddrBody X (tb ++ .punct '+' :: (ti ++ .punct '*' :: ts)) = .ok (a, [])) :
    ∃ n suf td, ts = .int n suf :: td ∧ (n = 1 ∨ n = 2 ∨ n = 4 ∨ n = 8) := by
  obtain ⟨k, suf, td, hk, rfl, -⟩ := scaled hX hb hi h
  refine ⟨_, _, _, rfl, ?_⟩
  have key : ∀ k : BitVec 8, k < 4 → 2 ^ k.toNat = 1 ∨ 2 ^ k.toNat = 2 ∨ 2 ^ k.toNat = 4 ∨ 2 ^ k.toNat = 8 := by
    intro k h
    have : k.toNat < 4 := h
    have : k.toNat = 0 ∨ k.toNat = 1 ∨ k.toNat = 2 ∨ k.toNat = 3 := by omega
    rcases this with h | h | h | h <;> rw [h] <;> decide
  exact key k hk

/-- The literals 1, 2, 4 and 8 are accepted, and then the index register is multiplied by that
    number in the machine address. -/
theorem C42_scale (hX : Takes X) (hb : RegSyn X b tb) (hi : RegSyn X i ti) (hd : OptDispSyn X d td)
    (hn : n = 1 ∨ n = 2 ∨ n = 4 ∨ n = 8) :
    ∃ a, indAddrBody X (tb ++ .punct '+' :: (ti ++ .punct '*' :: .int n suf :: td)) = .ok (a, [])
      ∧ a.base = b ∧ a.disp = d
      ∧ ∀ A, addr rel (a.map ρ σ) = some A →
          ∃ r sc, A.index = some (r, sc) ∧ gpr (i.map ρ) = some r ∧ 2 ^ sc.toNat = n := by
  obtain ⟨k, hk, rfl⟩ : ∃ k : BitVec 8, k < 4 ∧ n = 2 ^ k.toNat := by
    rcases hn with rfl | rfl | rfl | rfl
    · exact ⟨0, by decide, rfl⟩
    · exact ⟨1, by decide, rfl⟩
    · exact ⟨2, by decide, rfl⟩
    · exact ⟨3, by decide, rfl⟩
  refine ⟨⟨b, .s1 k i, d⟩, ?_, rfl, rfl, ?_⟩
  · have := (indAddrBody_ok hX).2 (.index hb hi (.some (suf := suf) hk) hd)
    simpa using this
  · intro A hA
    simp only [addr, IndAddr.map, MScale.map, Option.bind_eq_bind, Option.bind_eq_some_iff, hk, if_true] at hA
    obtain ⟨r, h1, r', h2, h3⟩ := hA
    split at h3
    · cases h3
    · cases h3
      refine ⟨r', _, rfl, h2, ?_⟩
      congr 1
      have : k.toNat < 4 := hk
      simp only [BitVec.toNat_setWidth]
      omega

/-- No `*` is factor 1. -/
theorem C42_unscaled (hX : Takes X) (hb : RegSyn X b tb) (hi : RegSyn X i ti) (hd : OptDispSyn X d td) :
    ∃ a, indAddrBody X (tb ++ .punct '+' :: (ti ++ td)) = .ok (a, []) ∧ a.base = b ∧ a.disp = d
      ∧ ∀ A, addr rel (a.map ρ σ) = some A →
          ∃ r sc, A.index = some (r, sc) ∧ gpr (i.map ρ) = some r ∧ 2 ^ sc.toNat = 1 := by
  refine ⟨⟨b, .s1 0 i, d⟩, ?_, rfl, rfl, ?_⟩
  · have := (indAddrBody_ok hX).2 (.index hb hi .none hd)
    simpa using this
  · intro A hA
    simp only [addr, IndAddr.map, MScale.map, Option.bind_eq_bind, Option.bind_eq_some_iff] at hA
    obtain ⟨r, h1, r', h2, h3⟩ := hA
    split at h3
    · cases h3
    · cases h3
      exact ⟨r', _, rfl, h2, rfl⟩

/-- Signs of literals: `+ n` and `- n` after a base register (and index) are accepted iff `n` is at
    most 2^31 - 1, and then the machine displacement is `n`, respectively `-n`. -/
theorem C42_sign (hX : Takes X) (hf : Front X b sc ts) :
    (n ≤ 2147483647 ↔ ∃ a, indAddrBody X (ts ++ [.punct '+', .int n suf]) = .ok (a, []))
    ∧ (n ≤ 2147483647 ↔ ∃ a, indAddrBody X (ts ++ [.punct '-', .int n suf]) = .ok (a, []))
    ∧ (indAddrBody X (ts ++ [.punct '+', .int n suf]) = .ok (a, []) →
        a.base = b ∧ a.scale = sc ∧ disp rel (a.disp.map ρ σ) = BitVec.ofNat 64 n)
    ∧ (indAddrBody X (ts ++ [.punct '-', .int n suf]) = .ok (a, []) →
        a.base = b ∧ a.scale = sc ∧ disp rel (a.disp.map ρ σ) = -BitVec.ofNat 64 n) := by
  have hp : n ≤ 2147483647 → indAddrBody X (ts ++ [.punct '+', .int n suf]) = .ok (⟨b, sc, .imm (BitVec.ofInt 32 n)⟩, []) :=
    fun h => front_ok hX hf (.plus .pos (by omega) (by omega)) (by simp)
  have hm : n ≤ 2147483647 → indAddrBody X (ts ++ [.punct '-', .int n suf]) = .ok (⟨b, sc, .imm (BitVec.ofInt 32 (-n))⟩, []) :=
    fun h => front_ok hX hf (.minus .pos (by omega) (by omega)) (by simp)
  have hp' : ∀ a, indAddrBody X (ts ++ [.punct '+', .int n suf]) = .ok (a, []) → n ≤ 2147483647 := by
    intro a h
    obtain ⟨d, -, h⟩ := front_inv hX hf (.inl rfl) (by simp) h
    cases h with
    | plus h h1 h2 => cases h; omega
  have hm' : ∀ a, indAddrBody X (ts ++ [.punct '-', .int n suf]) = .ok (a, []) → n ≤ 2147483647 := by
    intro a h
    obtain ⟨d, -, h⟩ := front_inv hX hf (.inr rfl) (by simp) h
    cases h with
    | minus h h1 h2 => cases h; omega
  refine ⟨⟨fun h => ⟨_, hp h⟩, fun ⟨a, h⟩ => hp' a h⟩, ⟨fun h => ⟨_, hm h⟩, fun ⟨a, h⟩ => hm' a h⟩, ?_, ?_⟩
  · intro h
    have hn := hp' _ h
    rw [hp hn] at h
    cases h
    refine ⟨rfl, rfl, ?_⟩
    simp only [MDisp.map, disp]
    apply BitVec.eq_of_toInt_eq
    rw [BitVec.toInt_signExtend_of_le (by decide), BitVec.toInt_ofInt, BitVec.toInt_ofNat']
    simp only [Int.bmod_def]
    omega
  · intro h
    have hn := hm' _ h
    rw [hm hn] at h
    cases h
    refine ⟨rfl, rfl, ?_⟩
    simp only [MDisp.map, disp]
    apply BitVec.eq_of_toInt_eq
    rw [BitVec.toInt_signExtend_of_le (by decide), BitVec.toInt_ofInt, BitVec.toInt_neg, BitVec.toInt_ofNat']
    simp only [Int.bmod_def]
    omega

/-- Signs of expressions: `- (e)` has the negated displacement of `+ (e)` (as `i32`). -/
theorem C42_sign_expr (hX : Takes X) (hf : Front X b sc ts) {e : List Tok} (he : IsExpr X e) :
    ∃ a a', indAddrBody X (ts ++ [.punct '+', .group .paren e]) = .ok (a, [])
      ∧ indAddrBody X (ts ++ [.punct '-', .group .paren e]) = .ok (a', [])
      ∧ a'.base = a.base ∧ a'.scale = a.scale
      ∧ disp rel (a.disp.map ρ σ) = ((ρ e).setWidth 32).signExtend 64
      ∧ disp rel (a'.disp.map ρ σ) = (-(ρ e).setWidth 32).signExtend 64 :=
  ⟨_, _, front_ok hX hf (.plusExpr he) (by simp), front_ok hX hf (.minusExpr he) (by simp), rfl, rfl, rfl, rfl⟩

/-- The machine code generated for `lea r, [...]` has the base, factor and displacement above: the
    base and index registers of the address, the factor `2 ^ sc`, and the displacement `± n` or `± e`. -/
theorem C42_encoded {r : Register Val} {g : X86.Gpr} {A s0 s1 la memory} (hg : gpr r = some g)
    (hr : Runs (.Lea (.reg r) (.ind (a.map ρ σ))) s0 s1) (hl : Linked s0 s1 la memory) (hne : Near la (here s1))
    (hA : addr (dist la (here s1)) (a.map ρ σ) = some A) (after) :
    X86.decode (bytes memory (here s0) (here s1 - here s0) ++ after) = some (.lea .q (.gpr g) A, after)
    ∧ A.disp = disp (dist la (here s1)) (a.disp.map ρ σ) := by
  refine ⟨faithful _ (by simp) (by simp) _ _ _ _ _ hr hl hne (by simp [meaning, hg, hA]) after, ?_⟩
  unfold addr at hA
  split at hA
  · split at hA
    · cases hA; rfl
    · simp only [Option.bind_eq_bind, Option.bind_eq_some_iff] at hA
      obtain ⟨_, _, h⟩ := hA
      cases h; rfl
  · simp only [Option.bind_eq_bind, Option.bind_eq_some_iff] at hA
    obtain ⟨_, _, _, _, h⟩ := hA
    split at h
    · cases h
    · split at h
      · cases h; rfl
      · cases h

/-- `lea rax, [rbp - (e)]` with `e = 24`. -/
example : ∃ a s1, indAddrBody exExpr [.ident "rbp", .punct '-', .group .paren [.ident "e"]] = .ok (a, [])
    ∧ Runs (.Lea (.reg (.reg 0)) (.ind (a.map (fun _ => 24) fun _ => 0))) ex0 s1
    ∧ X86.decode (bytes s1.mem (here ex0) (here s1 - here ex0)) = some (.lea .q (.gpr 0) ⟨.gpr 5, none, -24⟩, []) := by
  have h : indAddrBody exExpr [.ident "rbp", .punct '-', .group .paren [.ident "e"]]
    = .ok (⟨.reg 5, .none, .expr true [.ident "e"]⟩, []) := rfl
  obtain ⟨s1, h1⟩ := (correct (i := .Lea (.reg (.reg 0)) (.ind ⟨.reg 5, .none, .expr true 24⟩)) (isMove_accepted (.lea _ _))
    (by simp) (by simp)).assembles ex0
    ⟨fun _ => 0, _, rfl⟩ (by intro n v h; cases h)
    (by simp [Known, Inst.mentions, Inst.labels, RmOperand.labels, IndAddr.labels, MDisp.labels]) room_ex0
  have hl := linked_self h1 (by simp [Inst.mentions, Inst.labels, RmOperand.labels, IndAddr.labels, MDisp.labels]) (fun _ => here s1)
  have h2 := C42_encoded (ρ := fun _ => 24) (σ := fun _ => 0) (a := ⟨.reg 5, .none, .expr true [.ident "e"]⟩) (g := 0) rfl h1 hl
    (by intro l; simp) rfl []
  exact ⟨_, s1, h, h1, by rw [List.append_nil] at h2; exact h2.1⟩

/-- `[rbp + R(n) * 8 - 16]` -/
example : ∃ a A r, indAddrBody exExpr [.ident "rbp", .punct '+', .ident "R", .group .paren [.ident "n"], .punct '*', .int 8 "",
      .punct '-', .int 16 ""] = .ok (a, [])
    ∧ addr (fun _ => 0) (a.map (fun _ => 3) fun _ => 0) = some A ∧ A.index = some (r, 3) ∧ A.disp = -16
    ∧ Front exExpr (.reg 5) (.s1 3 (.expr [.ident "n"]))
        [.ident "rbp", .punct '+', .ident "R", .group .paren [.ident "n"], .punct '*', .int 8 ""] :=
  ⟨_, _, _, rfl, rfl, rfl, rfl, .index (tb := [.ident "rbp"]) (ti := [.ident "R", .group .paren [.ident "n"]])
    (.name (regFromStr_some.1 rfl)) (.expr rfl) (.some (k := 3) (by decide))⟩

/-- `[rbp + rax * 3]` is rejected. -/
example : ∃ e, indAddrBody exExpr [.ident "rbp", .punct '+', .ident "rax", .punct '*', .int 3 ""] = .error e := ⟨_, rfl⟩

end Monoasm
