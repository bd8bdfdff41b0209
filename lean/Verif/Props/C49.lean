import Verif.Proofs.Exec
/-
  C49: execution follows the source program.

  The processor (`Spec/Cpu.lean`) fetches bytes, decodes and executes them. The source program
  (`Spec/Source.lean`) is the history of calls; it executes statements, and a jump to a label goes to
  the position where the label is bound.

  `E`, the effect of the instructions that are not control transfers, is arbitrary.

  So is `M`, the reading of the statements, but `Ready` requires it to agree with `encoded`. With the
  reading `meaning` this restricts the theorems to statements that are encoded as written: C25 and C33
  show that `roundpd` with a label operand and `cvttsd2siq` are encoded as other instructions. With the
  reading `encoded` there is no restriction (`C49_encoded`).
-/

namespace Monoasm
open Spec X86

variable {M : Reading} {base : Nat} {mem : Nat → Monoasm.Byte} {H : List Op} {E : Effect} {n n' j k : Nat} {d d' : Data} {i : Inst Val Nat}

/-- Each step of the source program is performed by the processor: by one step if it executes an
    instruction (`j = 1`), and by none if it only passes a label or the like (`j = 0`). -/
theorem C49_step_partial (hA : Alloc base) (hr : NoRaw H) (hf : KeepsLabels (JitMemory.new base mem) H)
    (h : SourceStep base mem H M E j n d n' d')
    (hR : ∀ i, H[n]? = some (.inst i) → j = 1 → Ready base mem H M n i) (hd : j = 1 → Intact base mem H n d) :
    Steps E j ⟨placeW base mem H n, d⟩ ⟨placeW base mem H n', d'⟩ := by
  cases h with
  | skip h1 h2 => rw [placeW, placeW, h2]; exact .zero
  | @jmp _ _ l _ h1 h2 =>
    have hR := hR _ h1 rfl
    refine .succ ((step_at hA hr hf h1 hR (hR.read _) (hd rfl)).2 ?_) .zero
    have := labelAddr_eq (binds_address hA hr hf (hR.once l (by simp [Inst.mentions, Inst.labels, Dest.labels])) h2)
    have e := dist_add (labelAddr (reach base mem H)) (place base mem H (n + 1)) l
    rw [this] at e
    rw [show placeW base mem H n' = _ from e.symm]
    exact .jmpRel
  | @taken _ _ c l _ h1 h2 h3 =>
    have hR := hR _ h1 rfl
    refine .succ ((step_at hA hr hf h1 hR (hR.read _) (hd rfl)).2 ?_) .zero
    have := labelAddr_eq (binds_address hA hr hf (hR.once l (by simp [Inst.mentions, Inst.labels])) h2)
    have e := dist_add (labelAddr (reach base mem H)) (place base mem H (n + 1)) l
    rw [this] at e
    have := Exec.jcc (E := E) (next := placeW base mem H (n + 1)) (c := cc c) (d := d)
      (v := dist (labelAddr (reach base mem H)) (place base mem H (n + 1)) l)
    rw [if_pos h3] at this
    rw [show placeW base mem H n' = _ from e.symm]
    exact this
  | @notTaken _ c l _ h1 h3 =>
    have hR := hR _ h1 rfl
    refine .succ ((step_at hA hr hf h1 hR (hR.read _) (hd rfl)).2 ?_) .zero
    have := Exec.jcc (E := E) (next := placeW base mem H (n + 1)) (c := cc c) (d := d)
      (v := dist (labelAddr (reach base mem H)) (place base mem H (n + 1)) l)
    rw [if_neg (by simp [h3])] at this
    exact this
  | @call _ _ l _ h1 h2 =>
    have hR := hR _ h1 rfl
    refine .succ ((step_at hA hr hf h1 hR (hR.read _) (hd rfl)).2 ?_) .zero
    have := labelAddr_eq (binds_address hA hr hf (hR.once l (by simp [Inst.mentions, Inst.labels, Dest.labels])) h2)
    have e := dist_add (labelAddr (reach base mem H)) (place base mem H (n + 1)) l
    rw [this] at e
    rw [show placeW base mem H n' = _ from e.symm]
    exact .callRel
  | seq h1 h2 h3 h4 => exact .succ ((step_at hA hr hf h1 (hR _ h1 rfl) h2 (hd rfl)).2 (.other h3 h4)) .zero
  | indirect h1 h2 h3 h4 h5 => exact .succ ((step_at hA hr hf h1 (hR _ h1 rfl) h3 (hd rfl)).2 h5) .zero

/-- Runs of any length: `k` instructions of the source program are `k` steps of the processor. -/
theorem C49_partial (hA : Alloc base) (hr : NoRaw H) (hf : KeepsLabels (JitMemory.new base mem) H)
    (h : SourceRun base mem H M E k n d n' d') : Steps E k ⟨placeW base mem H n, d⟩ ⟨placeW base mem H n', d'⟩ := by
  induction h with
  | done => exact .zero
  | step h1 h2 h3 _ ih => exact steps_append (C49_step_partial hA hr hf h1 h2 h3) ih

/-- Statements are encoded as written, except for the two kinds. -/
theorem C49_as_written {i : Inst Val Nat} (h : Meaningful i) : (∀ rel, meaning rel i = encoded rel i) ↔ Ordinary i :=
  ⟨as_written_ordinary h, ordinary_encoded⟩

/-- No restriction on the statements, if they are read as `encoded` says. -/
theorem C49_encoded (hA : Alloc base) (hr : NoRaw H) (hf : KeepsLabels (JitMemory.new base mem) H)
    (h : SourceRun base mem H encoded E k n d n' d') : Steps E k ⟨placeW base mem H n, d⟩ ⟨placeW base mem H n', d'⟩ :=
  C49_partial hA hr hf h

/-- Conversely, the processor at the code of a statement does what the statement says, and nothing
    else: its step is the step of the source program, unless a computed jump leaves the program. -/
theorem C49_only_partial {r : BitVec 64} (hA : Alloc base) (hr : NoRaw H) (hf : KeepsLabels (JitMemory.new base mem) H)
    (hn : H[n]? = some (.inst i)) (hv : Valid i) (hR : Ready base mem H M n i) (hd : Intact base mem H n d)
    (hl : ∀ l, i.mentions l → isDirect i → ∃ m, Binds base mem H m l)
    (h : X86.Step E ⟨placeW base mem H n, d⟩ ⟨r, d'⟩) :
    (∃ m, SourceStep base mem H M E 1 n d m d' ∧ placeW base mem H m = r)
    ∨ isDirect i = false ∧ (∃ I, instrAt base mem H M n i = some I ∧ I.isControl = true ∧ Exec E (placeW base mem H (n + 1)) I d r d')
      ∧ ∀ m, placeW base mem H m ≠ r := by
  obtain ⟨I, hI⟩ : ∃ I, instrAt base mem H M n i = some I := by
    obtain ⟨I, hI⟩ := encoded_some hv (dist (labelAddr (reach base mem H)) (place base mem H (n + 1)))
    exact ⟨I, (hR.read _).trans hI⟩
  rw [step_at hA hr hf hn hR hI hd] at h
  by_cases hdir : isDirect i = true
  · left
    have addr : ∀ l, i.mentions l → ∃ m, Binds base mem H m l ∧
        placeW base mem H m = placeW base mem H (n + 1) + dist (labelAddr (reach base mem H)) (place base mem H (n + 1)) l := by
      intro l hm
      obtain ⟨m, hm'⟩ := hl l hm hdir
      refine ⟨m, hm', ?_⟩
      have := labelAddr_eq (binds_address hA hr hf (hR.once l hm) hm')
      have e := dist_add (labelAddr (reach base mem H)) (place base mem H (n + 1)) l
      rw [this] at e
      exact e.symm
    unfold isDirect at hdir
    split at hdir
    · rename_i l
      cases (hR.read _).symm.trans hI
      obtain ⟨m, hm, e⟩ := addr l (by simp [Inst.mentions, Inst.labels, Dest.labels])
      cases h with
      | jmpRel => exact ⟨m, .jmp hn hm, e⟩
      | other h => cases h
    · rename_i c l
      cases (hR.read _).symm.trans hI
      obtain ⟨m, hm, e⟩ := addr l (by simp [Inst.mentions, Inst.labels])
      cases h with
      | jcc =>
        by_cases hc : (cc c).holds d.flags = true
        · exact ⟨m, .taken hn hm hc, by rw [if_pos hc]; exact e⟩
        · exact ⟨n + 1, .notTaken hn (by simpa using hc), by rw [if_neg hc]⟩
      | other h => cases h
    · rename_i l
      cases (hR.read _).symm.trans hI
      obtain ⟨m, hm, e⟩ := addr l (by simp [Inst.mentions, Inst.labels, Dest.labels])
      cases h with
      | callRel => exact ⟨m, .call hn hm, e⟩
      | other h => cases h
    · cases hdir
  · have hdir : isDirect i = false := by simpa using hdir
    cases hc : I.isControl with
    | false =>
      left
      cases h with
      | other h1 h2 => exact ⟨n + 1, .seq hn hI h1 h2, rfl⟩
      | _ => cases hc
    | true =>
      by_cases hm : ∃ m, placeW base mem H m = r
      · obtain ⟨m, rfl⟩ := hm
        exact .inl ⟨m, .indirect hn hdir hI hc h, rfl⟩
      · exact .inr ⟨hdir, ⟨I, hI, hc, h⟩, fun m hm' => hm ⟨m, hm'⟩⟩

/-- The memory operand `[rip + label]` of a statement stands for the address of the label. -/
theorem C49_operand {a : Addr} {l : DestLabel} (la : Nat → Nat)
    (h : addr (dist la (place base mem H (n + 1))) ⟨.reg 16, .none, .label l⟩ = some a) :
    a.absolute (placeW base mem H (n + 1)) = ⟨.none, none, BitVec.ofNat 64 (la l)⟩ := by
  simp only [addr, regVal] at h
  cases h
  simp only [Addr.absolute, disp, placeW, dist_add]

/-- A loop: `l: subq rdi, 1; jne l; ret`. -/
def C49_program : List Op :=
  [.new .label, .inst (.Label 0), .inst (.Sub .QWORD (.reg (.reg 7)) (.imm 1)), .inst (.Jcc .Ne 0), .inst .Ret, .finalize]

/-- What `subq rdi, 1` does. -/
def C49_effect : Effect := fun I _ d d' =>
  I = .alu .sub .q (.gpr 7#4) (.imm 1)
  ∧ d' = { d.setGpr 7#4 (d.gpr 7#4 - 1) with flags := { d.flags with zf := d.gpr 7#4 - 1 == 0 } }

/-- Started with `rdi = k`, the loop is left after `2 * k` instructions with `rdi = 0`. -/
example (k : Nat) (d : Data) (h0 : 0 < k) (h1 : k < 2 ^ 64) (hk : d.gpr 7#4 = BitVec.ofNat 64 k)
    (hm : ∀ a, d.mem (BitVec.ofNat 64 a) = (reach 0x10000000 (fun _ => 0xcc) C49_program).mem a) :
    ∃ d', SourceRun 0x10000000 (fun _ => 0xcc) C49_program meaning C49_effect (2 * k) 1 d 4 d' ∧ d'.gpr 7#4 = 0
      ∧ Steps C49_effect (2 * k) ⟨placeW 0x10000000 (fun _ => 0xcc) C49_program 1, d⟩
          ⟨placeW 0x10000000 (fun _ => 0xcc) C49_program 4, d'⟩ := by
  have hf : KeepsLabels (JitMemory.new 0x10000000 fun _ => 0xcc) C49_program := by decide +kernel
  have runs : ∀ {i : Inst Val Nat} {s : JitMemory}, ((compile i).toOption.any fun m => (m s).isOk) = true → ∃ s1, Runs i s s1 := by
    intro i s h
    cases hc : compile i with
    | error e => rw [hc] at h; cases h
    | ok m =>
      rw [hc] at h
      obtain ⟨s1, h⟩ := Res.isOk_iff.1 (show (m s).isOk = true from h)
      exact ⟨s1, m, hc, h⟩
  have hr2 : Ready 0x10000000 (fun _ => 0xcc) C49_program meaning 2 (.Sub .QWORD (.reg (.reg 7)) (.imm 1)) :=
    ⟨runs (by decide +kernel), fun _ => rfl, by simp [SparesRange, Along, C49_program, Overwrites],
      by simp [Inst.mentions, Inst.labels, RmOperand.labels, RmiOperand.labels], 5, by decide, finishes_at (by decide +kernel) rfl,
      by simp [Inst.mentions, Inst.labels, RmOperand.labels, RmiOperand.labels]⟩
  have hr3 : Ready 0x10000000 (fun _ => 0xcc) C49_program meaning 3 (.Jcc .Ne 0) :=
    ⟨runs (by decide +kernel), fun _ => rfl, by simp [SparesRange, Along, C49_program, Overwrites],
      by
        intro l hl
        simp only [Inst.mentions, Inst.labels, List.mem_singleton] at hl
        subst hl
        exact C44_once (b := .inst (.Label 0)) (hc := []) (hm := [])
          (ht := [.inst (.Sub .QWORD (.reg (.reg 7)) (.imm 1)), .inst (.Jcc .Ne 0), .inst .Ret, .finalize]) hf (by simp) (by simp)
          (by simp [Op.binds]), 5, by decide, finishes_at (by decide +kernel) rfl, by
        intro l hl
        simp only [Inst.mentions, Inst.labels, List.mem_singleton] at hl
        subst hl
        have : ((reach 0x10000000 (fun _ => 0xcc) (C49_program.take 6)).locOf 0).isSome := by decide +kernel
        obtain ⟨⟨p, c⟩, h⟩ := Option.isSome_iff_exists.1 this
        exact ⟨_, hasAddress_of_loc (inv_reach _ _ _) (by decide) h⟩⟩
  have skip : ∀ d : Data, SourceStep 0x10000000 (fun _ => 0xcc) C49_program meaning C49_effect 0 1 d 2 d :=
    fun d => .skip (by decide) (by decide +kernel)
  have hb : Binds 0x10000000 (fun _ => 0xcc) C49_program 1 0 := ⟨.inl rfl, by decide +kernel⟩
  have main : ∀ k : Nat, ∀ d : Data, k + 1 < 2 ^ 64 → d.gpr 7#4 = BitVec.ofNat 64 (k + 1) →
      (∀ a, d.mem (BitVec.ofNat 64 a) = (reach 0x10000000 (fun _ => 0xcc) C49_program).mem a) →
      ∃ d', SourceRun 0x10000000 (fun _ => 0xcc) C49_program meaning C49_effect (2 * (k + 1)) 1 d 4 d' ∧ d'.gpr 7#4 = 0 := by
    intro k
    induction k with
    | zero =>
      intro d _ hk hm
      refine ⟨{ d.setGpr 7#4 (d.gpr 7#4 - 1) with flags := { d.flags with zf := d.gpr 7#4 - 1 == 0 } }, ?_, by simp only [Data.setGpr, hk, if_true]; rfl⟩
      refine .step (j := 0) (k := 2) (skip d) (by simp) (by simp) ?_
      refine .step (j := 1) (k := 1) (.seq rfl rfl rfl ⟨rfl, rfl⟩) ?_ (fun _ a _ _ => hm a) ?_
      · intro i hi _; cases hi; exact hr2
      refine .step (j := 1) (k := 0) (.notTaken rfl (by simp only [show d.gpr 7#4 - 1 = 0 by rw [hk]; rfl]; rfl)) ?_ (fun _ a _ _ => hm a) .done
      intro i hi _; cases hi; exact hr3
    | succ k ih =>
      intro d hlt hk hm
      have e : d.gpr 7#4 - 1 = BitVec.ofNat 64 (k + 1) := by
        rw [hk]
        apply BitVec.eq_of_toNat_eq
        simp
        omega
      have z : (BitVec.ofNat 64 (k + 1) == 0) = false := by
        simp only [beq_eq_false_iff_ne, ne_eq]
        intro h
        have := congrArg BitVec.toNat h
        simp at this
        omega
      obtain ⟨d', h1, h2⟩ := ih { d.setGpr 7#4 (d.gpr 7#4 - 1) with flags := { d.flags with zf := d.gpr 7#4 - 1 == 0 } }
        (by omega) (by simp only [Data.setGpr, e, if_true]) hm
      refine ⟨d', ?_, h2⟩
      rw [show 2 * (k + 1 + 1) = 0 + (1 + (1 + 2 * (k + 1))) by omega]
      refine .step (skip d) (by simp) (by simp) ?_
      refine .step (.seq rfl rfl rfl ⟨rfl, rfl⟩) ?_ (fun _ a _ _ => hm a) ?_
      · intro i hi _; cases hi; exact hr2
      refine .step (.taken rfl hb (by simp only [e, z]; rfl)) ?_ (fun _ a _ _ => hm a) h1
      intro i hi _; cases hi; exact hr3
  obtain ⟨k, rfl⟩ : ∃ j, k = j + 1 := ⟨k - 1, by omega⟩
  obtain ⟨d', h1, h2⟩ := main k d h1 hk hm
  have hA : Alloc 0x10000000 := ⟨by rw [PAGE_SIZE_eq]; decide, by decide, by rw [PAGE_SIZE_eq]; decide⟩
  exact ⟨d', h1, h2, C49_partial hA (by decide +kernel) hf h1⟩

end Monoasm
