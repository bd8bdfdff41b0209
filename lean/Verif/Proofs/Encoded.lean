import Verif.Proofs.Listing
import Verif.Proofs.Ranges
import Verif.Proofs.Lower
/-
  What is assembled, for all register numbers and memory operands.
-/

set_option linter.unusedSimpArgs false

namespace Monoasm
open Spec

section
variable {f : Register Val → Register Val} {g : XmmReg Val → XmmReg Val}

theorem IndAddr.regs_map (a : IndAddr Val Nat) : (a.mapRegs f).regs = a.regs.map f := by
  obtain ⟨b, sc, d⟩ := a
  cases sc <;> rfl
theorem RmOperand.regs_map (o : RmOperand Val Nat) : (o.mapRegs f).regs = o.regs.map f := by
  cases o <;> first | rfl | exact IndAddr.regs_map _
theorem RmiOperand.regs_map (o : RmiOperand Val Nat) : (o.mapRegs f).regs = o.regs.map f := by
  cases o <;> first | rfl | exact IndAddr.regs_map _
theorem RiOperand.regs_map (o : RiOperand Val) : (o.mapRegs f).regs = o.regs.map f := by
  cases o <;> rfl
theorem XmOperand.regs_map (o : XmOperand Val Nat) : (o.mapRegs f g).regs = o.regs.map f := by
  cases o <;> first | rfl | exact IndAddr.regs_map _
theorem MovOperand.regs_map (o : MovOperand Val Nat) : (o.mapRegs f g).regs = o.regs.map f := by
  cases o <;> first | rfl | exact IndAddr.regs_map _

theorem RmOperand.addrs_map (o : RmOperand Val Nat) : (o.mapRegs f).addrs = o.addrs.map (·.mapRegs f) := by
  cases o <;> rfl
theorem RmiOperand.addrs_map (o : RmiOperand Val Nat) : (o.mapRegs f).addrs = o.addrs.map (·.mapRegs f) := by
  cases o <;> rfl
theorem XmOperand.addrs_map (o : XmOperand Val Nat) : (o.mapRegs f g).addrs = o.addrs.map (·.mapRegs f) := by
  cases o <;> rfl
theorem MovOperand.addrs_map (o : MovOperand Val Nat) : (o.mapRegs f g).addrs = o.addrs.map (·.mapRegs f) := by
  cases o <;> rfl
theorem Dest.addrs_map (o : Dest Val Nat) : (o.mapRegs f).addrs = o.addrs.map (·.mapRegs f) := by
  cases o <;> rfl

theorem XmOperand.xmms_map (o : XmOperand Val Nat) : (o.mapRegs f g).xmms = o.xmms.map g := by
  cases o <;> rfl
theorem MovOperand.xmms_map (o : MovOperand Val Nat) : (o.mapRegs f g).xmms = o.xmms.map g := by
  cases o <;> rfl

theorem Inst.addrs_map (i : Inst Val Nat) : (i.mapRegs f g).addrs = i.addrs.map (·.mapRegs f) := by
  cases i <;> simp only [Inst.mapRegs, Inst.addrs, RmOperand.addrs_map, RmiOperand.addrs_map, XmOperand.addrs_map,
    MovOperand.addrs_map, Dest.addrs_map, List.map_append, List.map_nil]

theorem Inst.xmms_map (i : Inst Val Nat) : (i.mapRegs f g).xmms = i.xmms.map g := by
  cases i <;> simp only [Inst.mapRegs, Inst.xmms, XmOperand.xmms_map, MovOperand.xmms_map, List.map_append,
    List.map_cons, List.map_nil]
/-- The registers of the statement are those replaced, except that of `jmp` and `call`. -/
theorem Inst.regs_map (i : Inst Val Nat) (r) (h : r ∈ (i.mapRegs f g).regs) :
    (∃ q ∈ i.regs, r = f q) ∨ (r ∈ i.regs ∧ ∃ n, r = .reg n) := by
  have key : (i.mapRegs f g).regs = i.regs.map f → (∃ q ∈ i.regs, r = f q) ∨ (r ∈ i.regs ∧ ∃ n, r = .reg n) := by
    intro e
    rw [e, List.mem_map] at h
    obtain ⟨q, hq, rfl⟩ := h
    exact .inl ⟨q, hq, rfl⟩
  cases i
  case Jmp d | Call d =>
    cases d with
    | reg n => exact .inr ⟨h, n, by simpa [Inst.regs, Inst.mapRegs, Dest.mapRegs, Dest.regs] using h⟩
    | ind a => exact key (IndAddr.regs_map a)
    | rel l => cases h
    | disp e => cases h
  all_goals
    refine key ?_
    simp only [Inst.mapRegs, Inst.regs, RmOperand.regs_map, RmiOperand.regs_map, RiOperand.regs_map, XmOperand.regs_map,
      MovOperand.regs_map, List.map_append, List.map_cons, List.map_nil]

end

theorem reduced_le (r : Register Val) : regVal (reduced r) ≤ 16 := by
  simp only [reduced]
  split
  · decide
  · simp only [regVal, BitVec.le_def, BitVec.toNat_setWidth]
    have : (16 : Val).toNat = 16 := rfl
    omega

theorem reducedXmm_lt {x : XmmReg Val} (h : (xmmVal x).setWidth 8 ≠ 16#8) : xmmVal (reducedXmm x) < 16 := by
  rw [reducedXmm, if_neg h]
  simp only [xmmVal, BitVec.lt_def, BitVec.toNat_setWidth]
  have : (16 : Val).toNat = 16 := rfl
  omega

/-- Named registers exist, scale factors are 1, 2, 4 or 8, no xmm register has number 16 modulo 256. -/
theorem inFile_reduced {i : Inst Val Nat} (hw : Legible i) : InFile (i.mapRegs reduced reducedXmm) where
  regs := by
    intro r hr
    rcases Inst.regs_map i r hr with ⟨q, _, rfl⟩ | ⟨hm, n, rfl⟩
    · exact reduced_le q
    · have := hw.regs n hm
      simp only [regVal, BitVec.le_def, BitVec.toNat_setWidth] at this ⊢
      have e1 : (16 : Val).toNat = 16 := rfl
      have e2 : (16 : BitVec 8).toNat = 16 := rfl
      omega
  xmms := by
    intro x hx
    rw [Inst.xmms_map, List.mem_map] at hx
    obtain ⟨y, hy, rfl⟩ := hx
    exact reducedXmm_lt (hw.xmms y hy)
  scale := by
    intro a ha sc r h
    rw [Inst.addrs_map, List.mem_map] at ha
    obtain ⟨b, hb, rfl⟩ := ha
    obtain ⟨base, sc', d⟩ := b
    cases sc' with
    | none => simp [IndAddr.mapRegs] at h
    | s1 k q =>
      simp only [IndAddr.mapRegs, MScale.s1.injEq] at h
      exact h.1 ▸ hw.scale _ hb k q rfl

theorem encoded_low (rel) (i : Inst Val Nat) : LowI (encoded rel i) := by
  cases i
  case Cvttsd2siq a b => simp only [encoded]; lowi
  all_goals (simp only [encoded]; exact meaning_low _ _)

/-- The code of a statement that is assembled decodes to what the statement with reduced register
    numbers and without an index `rsp` is encoded as. -/
theorem encoded_faithful {i : Inst Val Nat} (hx : PlainXchg i)
    {s s' la mem I} (h : Runs i s s') (hl : Linked s s' la mem) (hn : ∀ x, here s ≤ x → x ≤ here s' → Near la x)
    (hM : encoded (dist la (here s')) ((i.mapRegs reduced reducedXmm).mapAddr dropRsp) = some I) (rest) :
    X86.decode (bytes mem (here s) (here s' - here s) ++ rest) = some (I, rest) := by
  obtain ⟨its, hi, hran⟩ := runs_items h
  have hh := hran.here
  have e : here s' - here s = lenOf its := by omega
  by_cases hr : ∀ r ∈ accRegs i, NotAcc r
  case neg =>
    have hA := accForm_of hx hr
    obtain ⟨J, its', hJ, h0, hd⟩ := hA.dec hi hran.noFail (fun l => BitVec.ofInt 32 ((la l : Int) - here s')) (dist la (here s'))
    have e1 : encoded (dist la (here s')) ((i.mapRegs reduced reducedXmm).mapAddr dropRsp)
        = meaning (dist la (here s')) (i.mapRegs reduced reducedXmm) := by cases hA <;> rfl
    rw [e1] at hM
    cases hM.symm.trans hJ
    rw [e, linked_bytes hran hl (slotsOk_items hi (by cases hA <;> simp))]
    exact (Dec.rex0 h0 hd (meaning_low _ _ _ hM)).dec rest
  obtain ⟨its', hi', h0⟩ := items_low hr its hi hran.noFail
  have hf : Item.fail .immOutOfRange ∉ its' := fun he => hran.noFail _ ((h0.fails _).1 he)
  have hlow := encoded_low _ _ _ hM
  rw [e]
  by_cases hR : ∃ a b m, i = .Roundpd a b m
  · obtain ⟨a, b, m, rfl⟩ := hR
    have hpos : here s < here s' := by
      have hi2 := hi
      cases hi2
      simp [Item.len] at hh
      omega
    rw [linked_vals hran hl (round_vals hi hran)]
    refine (Dec.rex0 h0 (decode_dropped (near_fits (hn _ (by omega) (by omega))) _ ?_ hi' hf) hlow).dec rest
    rw [dist_pred la (by omega)]
    exact hM
  · rw [linked_bytes hran hl (slotsOk_items hi fun a b m e => hR ⟨a, b, m, e⟩)]
    refine (Dec.rex0 h0 (decode_dropped (near_fits (hn _ (by omega) (Nat.le_refl _))) _ ?_ hi' hf) hlow).dec rest
    cases i <;> first | exact hM | exact absurd ⟨_, _, _, rfl⟩ hR

theorem encoded_valid {i : Inst Val Nat} (hw : Legible i) (hx : PlainXchg i) {s s'} (h : Runs i s s')
    (h1 : ∀ l, i ≠ .Label l) (h2 : ∀ v, i ≠ .I64 v) (h3 : ∀ v, i ≠ .F64 v) (rel) :
    ∃ I, meaning rel ((i.mapRegs reduced reducedXmm).mapAddr dropRsp) = some I := by
  obtain ⟨its, hi, hran⟩ := runs_items h
  by_cases hr : ∀ r ∈ accRegs i, NotAcc r
  case neg =>
    have hA := accForm_of hx hr
    obtain ⟨J, -, hJ, -⟩ := hA.dec hi hran.noFail (fun _ => 0) rel
    have e1 : (i.mapRegs reduced reducedXmm).mapAddr dropRsp = i.mapRegs reduced reducedXmm := by cases hA <;> rfl
    exact ⟨J, by rw [e1]; exact hJ⟩
  obtain ⟨its', hi', h0⟩ := items_low hr its hi hran.noFail
  have hf : NoFail its' := fun e he => hran.noFail _ ((h0.fails _).1 he)
  have : Valid ((i.mapRegs reduced reducedXmm).mapAddr dropRsp) := by
    rcases items_dropped (inFile_reduced hw) hi' hf with h | ⟨l, e⟩ | ⟨v, e⟩ | ⟨v, e⟩
    · exact h
    all_goals (exfalso; cases i <;> simp only [Inst.mapRegs, reduceCtorEq] at e)
    · exact h1 _ rfl
    · exact h2 _ rfl
    · exact h3 _ rfl
  obtain ⟨rel', I, hI⟩ := this
  have := meaning_indep rel rel' ((i.mapRegs reduced reducedXmm).mapAddr dropRsp)
  rw [hI] at this
  exact Option.isSome_iff_exists.1 this

theorem low_num {r : Register Val} (h : (regVal r).setWidth 8 ≠ 16#8) :
    r.toReg.low.num < 16#8 ∧ r.toReg.low.num.setWidth 4 = (regVal r).setWidth 4 := by
  have e1 : ((regVal r).setWidth 8).setWidth 4 = (regVal r).setWidth 4 := by
    apply BitVec.eq_of_toNat_eq
    simp only [BitVec.toNat_setWidth]
    omega
  rw [toReg_val, ← e1]
  revert h
  generalize (regVal r).setWidth 8 = n
  revert n
  decide +kernel

theorem xchg_faithful {p q : Register Val} (hp : (regVal p).setWidth 8 ≠ 0#8 ∧ (regVal p).setWidth 8 ≠ 16#8)
    (hq : (regVal q).setWidth 8 ≠ 0#8 ∧ (regVal q).setWidth 8 ≠ 16#8) {s s' la mem}
    (h : Runs (.Xchg .QWORD (.reg p) (.reg q)) s s') (hl : Linked s s' la mem) (rest) :
    X86.decode (bytes mem (here s) (here s' - here s) ++ rest)
      = some (.xchg .q (.gpr ((regVal p).setWidth 4)) (.gpr ((regVal q).setWidth 4)), rest) := by
  obtain ⟨its, hi, hran⟩ := runs_items h
  have hh := hran.here
  have e : here s' - here s = lenOf its := by omega
  rw [e, linked_bytes hran hl (slotsOk_items hi (by simp))]
  have hz : ∀ {r : Register Val}, (regVal r).setWidth 8 ≠ 0#8 → ¬ r.toReg = Reg.from 0 := by
    intro r h1 h2
    rw [toReg_val] at h2
    exact h1 (by simpa [Reg.from] using h2)
  simp only [items, hz hp.1, hz hq.1, if_false, Except.ok.injEq] at hi
  subst hi
  obtain ⟨p1, p2⟩ := low_num hp.2
  obtain ⟨q1, q2⟩ := low_num hq.2
  have h0 := L.rexw_mr (b := 0x87) (ops := []) (r := q.toReg) (rm := Rm.reg p.toReg) (by decide) rfl rfl hran.noFail
  rw [low_rm_reg] at h0
  have hd := xchg_mr (ψ := fun l => BitVec.ofInt 32 ((la l : Int) - here s')) q1 (reg_rm _ p1)
  rw [q2] at hd
  simp only [opd, p2] at hd
  exact (Dec.rex0 h0 hd (by simp [operands, X86.Opd.low])).dec rest

end Monoasm
