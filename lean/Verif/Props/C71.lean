import Verif.Proofs.Rust2
import Verif.Model.Splice
import Verif.Model.Compile
/-
  C71: operands inside the expansion. The code that the macro produces contains the user's expressions
  next to operators of its own. An operand should be read as a unit, whatever operators it contains.

  Immediates, registers and `dq` of integers are. The displacement `(e)`, the target `call (e)` and
  negative floats are not: `as i32` and `as i64` apply to the last operand of `e` only, `to_ne_bytes` to
  the float without its sign.
-/

namespace Monoasm
open Rust

variable {ts : List Tok} {e : Rust.Expr} {Γ : Ctx} {ρ : String → Int} {chk : Bool} {t : IntTy} {v : Int}

/-- The reading of tokens is unambiguous, and the tokens are the text of what they are read as; a proper
    expression is what its text is read as. -/
theorem C71_unambiguous : (∀ e', Is ts e → Is ts e' → e' = e) ∧ (Is ts e ↔ e.Proper ∧ ts = e.text) :=
  ⟨fun _ h h' => h'.det h, fun h => ⟨h.proper, h.text⟩, fun ⟨h, h'⟩ => h' ▸ Is.of_proper h⟩

/-- An immediate is a unit. -/
theorem C71_immediate (h : Is ts e) : Is (immTokens ts) (.cast (.paren e) "i64") := by
  have := Is.of_proper (e := .cast (.paren e) "i64") ⟨h.proper, by simp [Rust.Expr.level]⟩
  rw [h.text]
  exact this

/-- Numbers of registers, `dq` of an integer and literal displacements have their values. -/
theorem C71_register (n : BitVec 8) : Is (regTokens n) (.cast (.lit n.toNat "u8") "u64") ∧
    HasTy Γ (.cast (.lit n.toNat "u8") "u64") (.int ⟨64, false⟩) ∧
    eval chk Γ ρ (.cast (.lit n.toNat "u8") "u64") ⟨64, false⟩ = some (n.toNat : Int) := by
  have hn := n.isLt
  refine ⟨Is.of_proper (e := .cast (.lit n.toNat "u8") "u64") ⟨trivial, by simp [Rust.Expr.level]⟩, ?_, ?_⟩
  · simp [HasTy, typeFor, forced, intTy, IntTy.max]
    omega
  · simp [eval, IntTy.wrap]
    omega

theorem C71_dq (x : BitVec 64) : Is (dqTokens x) (.cast (numeral x.toInt "i64") "u64") ∧
    HasTy Γ (.cast (numeral x.toInt "i64") "u64") (.int ⟨64, false⟩) ∧
    eval chk Γ ρ (.cast (numeral x.toInt "i64") "u64") ⟨64, false⟩ = some (x.toNat : Int) := by
  have h1 := BitVec.le_toInt x
  have h2 := BitVec.toInt_lt (x := x)
  refine ⟨?_, ?_, ?_⟩
  · have := (numeral_is x.toInt "i64").castLast "u64"
    unfold numeral at this ⊢
    unfold dqTokens asTokens
    split at this
    · rename_i hn; rw [if_pos hn]; exact this
    · rename_i hn; rw [if_neg hn]; exact this
  · unfold numeral
    split <;> simp [HasTy, typeFor, forced, intTy, IntTy.max, IntTy.min] <;> omega
  · have he : eval chk Γ ρ (.cast (numeral x.toInt "i64") "u64") ⟨64, false⟩ = some (IntTy.wrap ⟨64, false⟩ x.toInt) := by
      simp only [eval, numeral_eval]
      rfl
    have hw : IntTy.wrap ⟨64, false⟩ x.toInt = x.toInt % 18446744073709551616 := by
      simp [IntTy.wrap]
    refine he.trans (congrArg some ?_)
    have h3 := BitVec.toInt_eq_toNat_cond x
    have h4 := x.isLt
    rw [hw]
    generalize x.toInt = a at *
    generalize x.toNat = c at *
    split at h3 <;> omega

theorem C71_literal (d : BitVec 32) : Is (MDisp.imm d).tokens (numeral d.toInt "i32") ∧
    HasTy Γ (numeral d.toInt "i32") (.int i32) ∧ eval chk Γ ρ (numeral d.toInt "i32") i32 = some d.toInt := by
  have h1 := BitVec.le_toInt d
  have h2 := BitVec.toInt_lt (x := d)
  refine ⟨numeral_is _ _, ?_, numeral_eval _ _⟩
  unfold numeral
  split <;> simp [HasTy, intTy, IntTy.max, IntTy.min, i32] <;> omega

/-- The displacement `(e)` and the target of `call (e)`: the last operand of `e` is converted. It is a unit
    if and only if `e` has no binary operator outside parentheses. -/
theorem C71_partial (h : Is ts e) :
    Is (MDisp.expr false ts).tokens (e.castLast "i32") ∧
    Is (MDisp.expr true ts).tokens (.neg (.paren (e.castLast "i32"))) ∧
    Is (callTokens ts) (e.castLast "i64") ∧
    ∀ T, e.castLast T = .cast e T ↔ 7 ≤ e.level := by
  refine ⟨h.castLast "i32", ?_, h.castLast "i64", ?_⟩
  · have h' := h.castLast "i32"
    have := Is.of_proper (e := .neg (.paren (e.castLast "i32"))) ⟨h'.proper, by simp [Rust.Expr.level]⟩
    simpa [MDisp.tokens, asTokens, Rust.Expr.text, ← h'.text] using this
  · intro T
    cases e with
    | bin o l r =>
      have := level_le o
      simp only [Rust.Expr.castLast, Rust.Expr.level, reduceCtorEq, false_iff]
      omega
    | _ => simp [Rust.Expr.castLast, Rust.Expr.level]

/-- What follows for the value of a displacement: it is right if `e` has no binary operator outside
    parentheses, -/
theorem C71_unit_partial (hl : 7 ≤ e.level) (T : String) :
    eval chk Γ ρ (e.castLast T) t = (eval chk Γ ρ e (typeFor Γ t e)).map t.wrap := by
  have : e.castLast T = .cast e T := by
    cases e with
    | bin o l r =>
      have := level_le o
      simp only [Rust.Expr.level] at hl
      omega
    | _ => rfl
  rw [this]
  simp only [eval]
  cases eval chk Γ ρ e (typeFor Γ t e) <;> rfl

/-- if everything has type `i32` and the end of `e` is not the operand of a shift, -/
theorem C71_i32_partial (hρ : Typed Γ ρ) (h : HasTy Γ e (.int i32)) (ho : ∀ o ∈ e.lastOps, ¬ o.Shift) :
    eval chk Γ ρ (e.castLast "i32") i32 = eval chk Γ ρ e i32 :=
  castLast_i32 hρ e h ho

/-- and if the operators are those of modular arithmetic and the expansion has a type, except that a build
    with overflow checks may panic. -/
theorem C71_modular_partial (hρ : Typed Γ ρ) (ht : 32 ≤ t.bits) (hr : e.LastRing) (h : HasTy Γ e (.int t))
    (hf : t = i32 ∨ forced Γ e = some t) (h' : HasTy Γ (e.castLast "i32") (.int i32)) (hv : eval chk Γ ρ e t = some v) :
    eval false Γ ρ (e.castLast "i32") i32 = some (i32.wrap v) ∧
    ∀ w, eval true Γ ρ (e.castLast "i32") i32 = some w → w = i32.wrap v := by
  have hv' : eval false Γ ρ e t = some v := by
    cases chk
    · exact hv
    · exact eval_checked e hv
  have h1 := castLast_ring hρ e ht hr h hf h' hv'
  refine ⟨h1, fun w hw => ?_⟩
  rw [eval_checked _ hw] at h1
  exact Option.some.inj h1

/-- In these cases the displacement of the model of the expansion is the value of the expansion. -/
theorem C71_model {w : Int} (hw : w = i32.wrap v) :
    (MDisp.expr false (BitVec.ofInt 64 v)).toDisp = Disp.from_disp (BitVec.ofInt 32 w) ∧
    (MDisp.expr true (BitVec.ofInt 64 v)).toDisp = Disp.from_disp (BitVec.ofInt 32 (-w)) := by
  have : (BitVec.ofInt 64 v).setWidth 32 = BitVec.ofInt 32 w := by
    rw [hw, ofInt_wrap (by decide)]
    apply BitVec.eq_of_toNat_eq
    simp only [BitVec.toNat_setWidth, BitVec.toNat_ofInt]
    rw [← Int.toNat_natCast ((v % ((2 ^ 64 : Nat) : Int)).toNat % 2 ^ 32)]
    congr 1
    simp only [Int.natCast_emod]
    omega
  simp only [MDisp.toDisp, this, BitVec.ofInt_neg, and_self]

/-- `8 * (n / 2)` and `-n` with `n: i64` are such expressions. -/
example : Is [.int 8 "", .punct '*', .group .paren [.ident "n", .punct '/', .int 2 ""]]
      (.bin .mul (.lit 8 "") (.paren (.bin .div (.var "n") (.lit 2 "")))) ∧
    (let Γ : Ctx := fun _ => some (.int i64)
     let e : Rust.Expr := .bin .mul (.lit 8 "") (.paren (.bin .div (.var "n") (.lit 2 "")))
     e.LastRing ∧ HasTy Γ e (.int i64) ∧ forced Γ e = some i64 ∧ HasTy Γ (e.castLast "i32") (.int i32) ∧
     Typed Γ (fun _ => 7) ∧ eval true Γ (fun _ => 7) e i64 = some 24 ∧ eval true Γ (fun _ => 7) (e.castLast "i32") i32 = some 24) ∧
    (7 ≤ (Rust.Expr.neg (.var "n")).level) := by
  refine ⟨Is.of_proper (e := .bin .mul (.lit 8 "") (.paren (.bin .div (.var "n") (.lit 2 "")))) ?_, ?_, by decide⟩
  · simp [Rust.Expr.Proper, Rust.Expr.level, BinOp.level]
  · refine ⟨⟨trivial, trivial, trivial⟩, ?_, rfl, ?_, ?_, by decide, by decide⟩
    · simp [HasTy, i64, IntTy.max]
    · simp [HasTy, Rust.Expr.castLast, typeFor, forced, i32, i64, IntTy.max, intTy]
    · intro x t h
      cases h
      simp [IntTy.Fits, IntTy.min, IntTy.max, i64]

/-- The claim fails: with `n: i64` the address `[rax + (100 / n)]` with `n = 2^32 + 1` has displacement 100
    instead of 0. `[rax + (5 - n)]` with `n = 2^31` panics in a build with overflow checks, although
    `5 - 2^31` is a displacement. -/
theorem C71_violated :
    (let Γ : Ctx := fun _ => some (.int i64)
     let e : Rust.Expr := .bin .div (.lit 100 "") (.var "n")
     Is [.int 100 "", .punct '/', .ident "n"] e ∧ HasTy Γ e (.int i64) ∧ HasTy Γ (e.castLast "i32") (.int i32) ∧
     ∀ chk, eval chk Γ (fun _ => 4294967297) e i64 = some 0 ∧ eval chk Γ (fun _ => 4294967297) (e.castLast "i32") i32 = some 100) ∧
    (let Γ : Ctx := fun _ => some (.int i64)
     let e : Rust.Expr := .bin .sub (.lit 5 "") (.var "n")
     Is [.int 5 "", .punct '-', .ident "n"] e ∧ HasTy Γ e (.int i64) ∧ HasTy Γ (e.castLast "i32") (.int i32) ∧
     eval true Γ (fun _ => 2147483648) e i64 = some (-2147483643) ∧ eval true Γ (fun _ => 2147483648) (e.castLast "i32") i32 = none) := by
  refine ⟨⟨Is.of_proper (e := .bin .div (.lit 100 "") (.var "n")) ?_, ?_, ?_, ?_⟩,
    ⟨Is.of_proper (e := .bin .sub (.lit 5 "") (.var "n")) ?_, ?_, ?_, by decide, by decide⟩⟩
  · simp [Rust.Expr.Proper, Rust.Expr.level, BinOp.level]
  · simp [HasTy, i64, IntTy.max]
  · simp [HasTy, Rust.Expr.castLast, typeFor, forced, i32, i64, IntTy.max, intTy]
  · intro chk; cases chk <;> decide
  · simp [Rust.Expr.Proper, Rust.Expr.level, BinOp.level]
  · simp [HasTy, i64, IntTy.max]
  · simp [HasTy, Rust.Expr.castLast, typeFor, forced, i32, i64, IntTy.max, intTy]

/-- `call (1000 / n)` with `n: u64`, `n = 2^64 - 1` calls the address 1000 bytes before the next instruction
    instead of the next instruction. -/
theorem C71_call_violated :
    let Γ : Ctx := fun _ => some (.int ⟨64, false⟩)
    let ρ : String → Int := fun _ => 18446744073709551615
    let e : Rust.Expr := .bin .div (.lit 1000 "") (.var "n")
    Is [.int 1000 "", .punct '/', .ident "n"] e ∧ HasTy Γ e (.int ⟨64, false⟩) ∧ HasTy Γ (e.castLast "i64") (.int i64) ∧
    ∀ chk, eval chk Γ ρ e ⟨64, false⟩ = some 0 ∧ eval chk Γ ρ (e.castLast "i64") i64 = some (-1000) := by
  refine ⟨Is.of_proper (e := .bin .div (.lit 1000 "") (.var "n")) ?_, ?_, ?_, ?_⟩
  · simp [Rust.Expr.Proper, Rust.Expr.level, BinOp.level]
  · simp [HasTy, IntTy.max]
  · simp [HasTy, Rust.Expr.castLast, typeFor, forced, i64, IntTy.max, intTy]
  · intro chk; cases chk <;> decide

/-- Some expressions have no type in the expansion: `(n + 8)` with a variable of another type than `i32`. -/
theorem C71_untyped {x : String} {n : Nat} {o : BinOp} (ho : ¬ o.Shift) (hx : Γ x = some (.int t)) (ht : t ≠ i32) (T : Ty) :
    ¬ HasTy Γ (Rust.Expr.castLast "i32" (.bin o (.var x) (.lit n ""))) T := by
  intro h
  cases T with
  | int s =>
    rw [Rust.Expr.castLast, hasTy_bin ho] at h
    have h1 : Γ x = some (.int s) := by simpa [HasTy] using h.1
    have h2 : intTy "i32" = some s := by
      have := h.2
      simp only [Rust.Expr.castLast, HasTy] at this
      exact this.1
    rw [hx] at h1
    cases h1
    cases h2
    exact ht rfl
  | _ => cases o <;> simp [Rust.Expr.castLast, HasTy] at h

/-- `dq` of a float: the number is a unit if it is not negative, -/
theorem C71_float_partial (b : BitVec 64) {ts : List Tok} (h : dqFloatTokens b = some ts) (hb : b.msb = false) :
    Is ts (.ref (.method (.float b) "to_ne_bytes")) ∧ HasTy Γ (.ref (.method (.float b) "to_ne_bytes")) (.ref .bytes) := by
  unfold dqFloatTokens at h
  split at h
  · cases h
  · rw [if_neg (by simp [hb])] at h
    cases h
    refine ⟨Is.of_proper (e := .ref (.method (.float b) "to_ne_bytes")) ?_, ?_⟩
    · simp [Rust.Expr.Proper, Rust.Expr.level]
    · simp [HasTy]

/-- and `dq -1.5;`, which the parser accepts, has an expansion without a type, as have all negative floats;
    the macro panics if the number is too large for a float. -/
theorem C71_float_violated (b : BitVec 64) :
    (b.msb = true → ∀ ts, dqFloatTokens b = some ts →
      Is ts (.ref (.neg (.method (.float (b ^^^ 0x8000000000000000)) "to_ne_bytes"))) ∧
      ∀ Γ T, ¬ HasTy Γ (.ref (.neg (.method (.float (b ^^^ 0x8000000000000000)) "to_ne_bytes"))) T) ∧
    (dqFloatTokens b = none ↔ b &&& 0x7ff0000000000000 = 0x7ff0000000000000) ∧
    parseDq [.punct '-', .float b, .punct ';'] = .ok (.F64 (b ^^^ 0x8000000000000000), []) := by
  refine ⟨?_, ?_, rfl⟩
  · intro hb ts h
    unfold dqFloatTokens at h
    split at h
    · cases h
    · cases h
      refine ⟨Is.of_proper (e := .ref (.neg (.method (.float (b ^^^ 0x8000000000000000)) "to_ne_bytes"))) ?_, ?_⟩
      · simp [Rust.Expr.Proper, Rust.Expr.level]
      · intro Γ T h
        cases T with
        | ref T =>
          simp only [HasTy] at h
          cases T <;> simp [HasTy] at h
        | _ => simp [HasTy] at h
  · unfold dqFloatTokens
    split <;> simp_all

/-- -1.5 is such a number. -/
example : ∃ ts, dqFloatTokens 0xbff8000000000000 = some ts ∧ (0xbff8000000000000 : BitVec 64).msb = true := ⟨_, rfl, rfl⟩

end Monoasm
