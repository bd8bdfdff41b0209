import Verif.Spec.Print
/-
  Helper lemmas for C41: the printer.
-/

namespace Monoasm
open Spec

variable {X : RustExpr}

theorem operandSyn_eq (i : TInst) : operandSyn X i = (writtens i).map (OperandSyn X) := by
  cases i <;> rfl

theorem isRegister_iff {s : String} : isRegister s = true ↔ ∃ n, RegName s n := by
  simp only [isRegister, Bool.or_eq_true, List.contains_iff_mem, beq_iff_eq, RegName]
  constructor
  · rintro (h | h)
    · obtain ⟨k, hk⟩ := List.mem_iff_getElem?.1 h
      have hlt : k < 17 := (List.getElem?_eq_some_iff.1 hk).1
      exact ⟨BitVec.ofNat 8 k, .inl (by rw [BitVec.toNat_ofNat, Nat.mod_eq_of_lt (by omega)]; exact hk)⟩
    · exact ⟨1, .inr ⟨h, rfl⟩⟩
  · rintro ⟨n, h | h⟩
    · exact .inl (List.mem_of_getElem? h)
    · exact .inr h.1

theorem not_isRegister {s : String} (h : isRegister s = false) (n) : ¬ RegName s n := by
  intro hn
  rw [isRegister_iff.2 ⟨n, hn⟩] at h
  cases h

theorem lowercase_regNames : ∀ k : Fin 17, regNames[k.val]? = some (lowercase (regNames.getD k.val "")) := by decide +kernel

theorem regName_print {n : BitVec 8} (h : n.toNat < 17) : RegName (regNames.getD n.toNat "") n :=
  .inl (lowercase_regNames ⟨n.toNat, h⟩)

theorem regName_expressible {s n} (h : RegName s n) : n.toNat < 17 := by
  rcases h with h | ⟨-, rfl⟩
  · exact (List.getElem?_eq_some_iff.1 h).1
  · decide

theorem printReg_syn {r} (h : RegOk X r) : RegSyn X r (printReg r) := by
  cases r with
  | reg n => exact .name (regName_print h)
  | expr e => exact .expr h

theorem reg_expressible {r ts} (h : RegSyn X r ts) : RegOk X r := by
  cases h with
  | name h => exact regName_expressible h
  | expr h => exact h

theorem numeral_small : ∀ k : Fin 16, (toString k.val).toList ≠ [] ∧ (∀ c ∈ (toString k.val).toList, c.isDigit)
    ∧ k.val = (toString k.val).toList.foldl (fun n c => 10 * n + (c.toNat - 48)) 0 := by decide +kernel

theorem printXmm_syn {x} (h : XmmOk x) : XmmSyn x (printXmm x) := by
  cases x with
  | no n =>
    have := XmmSyn.name (s := toString n.toNat) (n := n.toNat) (numeral_small ⟨n.toNat, h⟩) h
    rwa [BitVec.ofNat_toNat, BitVec.setWidth_eq] at this
  | expr e => exact .expr

theorem xmm_expressible {x ts} (h : XmmSyn x ts) : XmmOk x := by
  cases h with
  | name _ h => simp only [XmmOk, BitVec.toNat_ofNat]; omega
  | expr => trivial

theorem litSyn_print (n : Int) : LitSyn n "" (if 0 ≤ n then [.int n.natAbs ""] else [.punct '-', .int n.natAbs ""]) := by
  split
  · rename_i h
    have e : n = (n.natAbs : Int) := by omega
    rw (occs := [1]) [e]
    exact .pos
  · rename_i h
    have e : n = -(n.natAbs : Int) := by omega
    rw (occs := [1]) [e]
    exact .neg

theorem printDisp_syn {d} (h : DispOk X d) : OptDispSyn X d (printDisp d) ∧ ∀ l, printDisp d = [.punct '+', .ident l] → NotReg l := by
  cases d with
  | imm d =>
    have hl := litSyn_print d.toInt
    have h1 := BitVec.le_toInt d
    have h2 := BitVec.toInt_lt (x := d)
    simp only [printDisp]
    split
    · rename_i h0; subst h0; exact ⟨.none, by simp⟩
    split
    · rename_i h0 h3
      rw [if_pos h3] at hl
      refine ⟨.some ?_, by simp⟩
      have := DispSyn.plus (X := X) hl (by omega) (by omega)
      rwa [BitVec.ofInt_toInt] at this
    split
    · rename_i h0 h3 h4
      rw [if_neg h3] at hl
      refine ⟨.some ?_, by simp⟩
      have := DispSyn.plus (X := X) hl (by omega) (by omega)
      rwa [BitVec.ofInt_toInt] at this
    · rename_i h0 h3 h4
      refine ⟨.some ?_, by simp⟩
      have := DispSyn.minus (X := X) (LitSyn.pos (n := d.toInt.natAbs) (suf := "")) (by omega) (by omega)
      rwa [show -((d.toInt.natAbs : Nat) : Int) = d.toInt by omega, BitVec.ofInt_toInt] at this
  | expr neg e =>
    cases neg
    · exact ⟨.some (.plusExpr h), by simp [printDisp]⟩
    · exact ⟨.some (.minusExpr h), by simp [printDisp]⟩
  | label l =>
    simp only [printDisp]
    split
    · exact ⟨.some .minusLabel, by simp⟩
    · rename_i h0
      refine ⟨.some .plusLabel, fun l' e => ?_⟩
      simp only [Bool.or_eq_true, decide_eq_true_eq, not_or, Bool.not_eq_true] at h0
      obtain rfl : l = l' := by simpa using e
      exact ⟨h0.1, not_isRegister h0.2⟩

theorem disp_expressible {d ts} (h : OptDispSyn X d ts) : DispOk X d := by
  cases h with
  | none => trivial
  | some h =>
    cases h with
    | plusExpr h => exact h
    | minusExpr h => exact h
    | _ => trivial

theorem printScale_syn {k : BitVec 8} (h : k < 4) : ScaleSyn k (printScale k) := by
  rw [printScale]
  split
  · rename_i h0; subst h0; exact .none
  · exact .some h

theorem scale_expressible {k ts} (h : ScaleSyn k ts) : k < 4 := by
  cases h with
  | none => decide
  | some h => exact h

theorem printAddr_syn {a} (h : AddrOk X a) : MemSyn X a (printAddr a) := by
  obtain ⟨b, sc, d⟩ := a
  obtain ⟨h1, h2, h3⟩ := h
  obtain ⟨h4, h5⟩ := printDisp_syn h3
  cases sc with
  | none => exact .mk (.disp (printReg_syn h1) h4 h5)
  | s1 k i => exact .mk (.index (printReg_syn h1) (printReg_syn h2.2) (printScale_syn h2.1) h4)

theorem addr_expressible {a ts} (h : MemSyn X a ts) : AddrOk X a := by
  obtain ⟨h⟩ := h
  cases h with
  | disp h1 h2 => exact ⟨reg_expressible h1, trivial, disp_expressible h2⟩
  | index h1 h2 h3 h4 => exact ⟨reg_expressible h1, ⟨scale_expressible h3, reg_expressible h2⟩, disp_expressible h4⟩

theorem printImm_syn (e : List Tok) : ImmSyn e (printImm e) := by
  unfold printImm
  split
  · exact .lit
  · exact .expr

theorem printOperand_syn {o} (h : OperandOk X o) : OperandSyn X o (printOperand o) := by
  cases o with
  | reg r => exact printReg_syn h
  | rm a => cases a with
    | reg r => exact printReg_syn h
    | ind a => exact printAddr_syn h
  | rmi a => cases a with
    | imm e => exact printImm_syn e
    | reg r => exact printReg_syn h
    | ind a => exact printAddr_syn h
  | ri a => cases a with
    | imm e => exact printImm_syn e
    | reg r => exact printReg_syn h
  | xmm x => exact printXmm_syn h
  | xm a => cases a with
    | xmm x => exact printXmm_syn h
    | ind a => exact printAddr_syn h
  | mov a => cases a with
    | imm e sz => cases sz with
      | none => exact printImm_syn e
      | some sz => exact ⟨h, _, rfl, printImm_syn e⟩
    | reg r => exact printReg_syn h
    | xmm x => exact printXmm_syn h
    | ind a => exact printAddr_syn h
  | dest d => cases d with
    | reg n => exact .reg (regName_print h)
    | rel l => exact .rel (not_isRegister h)
    | disp e => exact .disp
    | ind a => exact .ind (printAddr_syn h)
  | label l => rfl
  | imm e => exact printImm_syn e
  | f64 b => exact .pos
  | i64 v =>
    refine ⟨v.toInt, "", litSyn_print v.toInt, ?_, ?_, (BitVec.ofInt_toInt).symm⟩
    · have := BitVec.le_toInt v; omega
    · have := BitVec.toInt_lt (x := v); omega

theorem operand_expressible {o ts} (h : OperandSyn X o ts) : OperandOk X o := by
  cases o with
  | reg r => exact reg_expressible h
  | rm a => cases a with
    | reg r => exact reg_expressible h
    | ind a => exact addr_expressible h
  | rmi a => cases a with
    | imm e => trivial
    | reg r => exact reg_expressible h
    | ind a => exact addr_expressible h
  | ri a => cases a with
    | imm e => trivial
    | reg r => exact reg_expressible h
  | xmm x => exact xmm_expressible h
  | xm a => cases a with
    | xmm x => exact xmm_expressible h
    | ind a => exact addr_expressible h
  | mov a => cases a with
    | imm e sz => cases sz with
      | none => trivial
      | some sz => exact h.1
    | reg r => exact reg_expressible h
    | xmm x => exact xmm_expressible h
    | ind a => exact addr_expressible h
  | dest d =>
    cases h with
    | reg h => exact regName_expressible h
    | rel h =>
      rw [OperandOk, Bool.eq_false_iff]
      intro h'
      obtain ⟨n, hn⟩ := isRegister_iff.1 h'
      exact h n hn
    | disp => trivial
    | ind h => exact addr_expressible h
  | _ => trivial

theorem each_print {os : List Written} (h : ∀ o ∈ os, OperandOk X o) : Each (os.map (OperandSyn X)) (os.map printOperand) := by
  induction os with
  | nil => trivial
  | cons o os ih => exact ⟨printOperand_syn (h o (by simp)), ih fun x hx => h x (by simp [hx])⟩

theorem each_expressible {os : List Written} {tss} (h : Each (os.map (OperandSyn X)) tss) : ∀ o ∈ os, OperandOk X o := by
  induction os generalizing tss with
  | nil => simp
  | cons o os ih =>
    cases tss with
    | nil => exact h.elim
    | cons ts tss =>
      intro x hx
      rcases List.mem_cons.1 hx with rfl | hx
      · exact operand_expressible h.1
      · exact ih h.2 x hx

theorem print_syn {i} (h : Expressible X i) : InstSyn X i (print i) := by
  by_cases hl : ∃ l, i = .Label l
  · obtain ⟨l, rfl⟩ := hl
    exact .label
  · have hs : spellings i ≠ [] := h.1.resolve_left hl
    have e : print i = .ident ((spellings i).headD "") :: (commas ((writtens i).map printOperand) ++ [.punct ';']) := by
      unfold print
      split
      · exact absurd ⟨_, rfl⟩ hl
      · rfl
    rw [e]
    refine .inst ?_ (by rw [operandSyn_eq]; exact each_print h.2)
    cases hh : spellings i with
    | nil => exact absurd hh hs
    | cons a as => simp

theorem expressible_of {i ts} (h : InstSyn X i ts) : Expressible X i := by
  cases h with
  | label => exact ⟨.inl ⟨_, rfl⟩, by simp [writtens]⟩
  | inst h1 h2 =>
    refine ⟨.inr fun e => ?_, ?_⟩
    · rw [e] at h1; cases h1
    · rw [operandSyn_eq] at h2
      exact each_expressible h2

theorem printAll_syn {is : List TInst} (h : ∀ i ∈ is, Expressible X i) : InstsSyn X is (printAll is) := by
  induction is with
  | nil => exact .nil
  | cons i is ih =>
    rw [printAll, List.flatMap_cons]
    exact .cons (print_syn (h i (by simp))) (ih fun x hx => h x (by simp [hx]))

theorem expressibles_of {is : List TInst} {ts} (h : InstsSyn X is ts) : ∀ i ∈ is, Expressible X i := by
  induction h with
  | nil => simp
  | cons h1 _ ih =>
    intro x hx
    rcases List.mem_cons.1 hx with rfl | hx
    · exact expressible_of h1
    · exact ih x hx

end Monoasm
