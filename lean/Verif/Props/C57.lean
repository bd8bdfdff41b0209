import Verif.Proofs.Retarget
/-
  C57: a jump or call that is patched after `finalize` goes to its new target.

  C14 is about the state right after a patch. Here the patch is part of a history; before it the jump
  may have been patched any number of times, and after it code may be added, and `finalize` called,
  any number of times (`Patched`, `Spec/Retarget.lean`). With C49, which is about all statements that
  are not overwritten, this describes the execution of programs that are patched while they are
  built.
-/

namespace Monoasm
open Spec X86

variable {base : Nat} {mem : Nat → Monoasm.Byte} {H : List Op} {n m b : Nat} {i : Inst Val Nat} {l d : DestLabel}
  {E : Effect} {δ δ' : Data} {r : BitVec 64} {I : Instr}

/-- At the patched statement, the processor executes exactly the instruction that the statement would
    mean if it were written with the new label. -/
theorem C57 (hA : Alloc base) (hr : NoRaw H) (hf : KeepsLabels (JitMemory.new base mem) H) (hP : Patched base mem H n m i d)
    (hd : Intact base mem H n δ) (hI : instrAt base mem H meaning n (retarget d i) = some I) :
    X86.Step E ⟨placeW base mem H n, δ⟩ ⟨r, δ'⟩ ↔ Exec E (placeW base mem H (n + 1)) I δ r δ' :=
  patched_step hA hr hf hP hd hI

/-- A patched jump: execution continues where the new label is bound, and nothing else changes. -/
theorem C57_jmp (hA : Alloc base) (hr : NoRaw H) (hf : KeepsLabels (JitMemory.new base mem) H)
    (hP : Patched base mem H n m (.Jmp (.rel l)) d) (hb : Binds base mem H b d) (hd : Intact base mem H n δ) :
    X86.Step E ⟨placeW base mem H n, δ⟩ ⟨r, δ'⟩ ↔ r = placeW base mem H b ∧ δ' = δ := by
  rw [C57 hA hr hf hP hd rfl]
  have e := dist_add (labelAddr (reach base mem H)) (place base mem H (n + 1)) d
  rw [labelAddr_eq (binds_address hA hr hf hP.once hb)] at e
  rw [show placeW base mem H b = _ from e.symm]
  constructor
  · intro h
    cases h with
    | jmpRel => exact ⟨rfl, rfl⟩
    | other h => cases h
  · rintro ⟨rfl, rfl⟩
    exact .jmpRel

/-- A patched call: the same, and the return address is pushed. -/
theorem C57_call (hA : Alloc base) (hr : NoRaw H) (hf : KeepsLabels (JitMemory.new base mem) H)
    (hP : Patched base mem H n m (.Call (.rel l)) d) (hb : Binds base mem H b d) (hd : Intact base mem H n δ) :
    X86.Step E ⟨placeW base mem H n, δ⟩ ⟨r, δ'⟩ ↔ r = placeW base mem H b ∧ δ' = δ.push (placeW base mem H (n + 1)) := by
  rw [C57 hA hr hf hP hd rfl]
  have e := dist_add (labelAddr (reach base mem H)) (place base mem H (n + 1)) d
  rw [labelAddr_eq (binds_address hA hr hf hP.once hb)] at e
  rw [show placeW base mem H b = _ from e.symm]
  constructor
  · intro h
    cases h with
    | callRel => exact ⟨rfl, rfl⟩
    | other h => cases h
  · rintro ⟨rfl, rfl⟩
    exact .callRel

/-- A jump on page 0 to label 1; after the first `finalize` it is patched to go to itself and then to
    label 2, which is on page 1; then code is added, and `finalize` is called again. -/
def C57_history : List Op :=
  [.new .label, .new .label, .new .label, .bind_label 0, .inst (.Jmp (.rel 1)), .bind_label 1, .inst .Ret,
    .select_page 1, .inst .Leave, .bind_label 2, .inst .Ret, .finalize,
    .apply_jmp_patch 0 0, .apply_jmp_patch_address 0x10000000 2,
    .inst (.Jmp (.rel 1)), .finalize, .select_page 0, .inst .Ret, .finalize]

example : Patched 0x10000000 (fun _ => 0xcc) C57_history 4 13 (.Jmp (.rel 1)) 2
    ∧ Binds 0x10000000 (fun _ => 0xcc) C57_history 9 2
    ∧ NoRaw C57_history ∧ KeepsLabels (JitMemory.new 0x10000000 fun _ => 0xcc) C57_history := by
  have hf : KeepsLabels (JitMemory.new 0x10000000 fun _ => 0xcc) C57_history := by decide +kernel
  have hpl : place 0x10000000 (fun _ => 0xcc) C57_history 4 = 0x10000000 := by decide +kernel
  have ha : ∀ {k l}, ((reach 0x10000000 (fun _ => 0xcc) (C57_history.take k)).locOf l).isSome = true →
      ∃ a, HasAddress (reach 0x10000000 (fun _ => 0xcc) (C57_history.take k)) l a := by
    intro k l h
    obtain ⟨⟨p, c⟩, h⟩ := Option.isSome_iff_exists.1 h
    exact ⟨_, hasAddress_of_loc (inv_reach _ _ _) (by decide) h⟩
  have h0 : HasAddress (reach 0x10000000 (fun _ => 0xcc) (C57_history.take 12)) 0 0x10000000 :=
    hasAddress_at (p := 0) (c := 0) (inv_reach _ _ _) (by decide) (by decide +kernel) (by decide)
  refine ⟨⟨rfl, ⟨1, .inl rfl, 11, by decide, by decide, finishes_at (by decide +kernel) rfl, ha (by decide +kernel)⟩, ?_, .inr ?_, ha (by decide +kernel), ?_, ?_, ?_⟩,
    ⟨.inr rfl, by decide +kernel⟩, by decide +kernel, hf⟩
  · have : ((compile (.Jmp (.rel 1)) : Except CompileError (M Unit)).toOption.any fun m =>
        (m (reach 0x10000000 (fun _ => 0xcc) (C57_history.take 4))).isOk) = true := by decide +kernel
    obtain ⟨s1, h⟩ := Res.isOk_iff.1 (show (JitMemory.enc_d [0xe9] 1 (reach 0x10000000 (fun _ => 0xcc) (C57_history.take 4))).isOk = true from this)
    exact ⟨s1, _, rfl, h⟩
  · rw [hpl]; rfl
  · exact C44_once (b := .bind_label 2) (hc := [.new .label, .new .label])
      (hm := [.bind_label 0, .inst (.Jmp (.rel 1)), .bind_label 1, .inst .Ret, .select_page 1, .inst .Leave])
      (ht := (C57_history.drop 10)) hf (by simp [Op.binds, countNew]) (by simp [Op.binds, countNew]) (by simp [C57_history, Op.binds, countNew])
  · rw [hpl]
    have e : (reach 0x10000000 (fun _ => 0xcc) (C57_history.take 12)) = ((Op.finalize).run ((Op.inst .Ret).run ((Op.bind_label 2).run ((Op.inst .Leave).run
      ((Op.select_page 1).run ((Op.inst .Ret).run ((Op.bind_label 1).run (reach 0x10000000 (fun _ => 0xcc) (C57_history.take 5))).state).state).state).state).state).state).state := rfl
    simp only [SparesRange, Along, C57_history, List.drop, Overwrites, not_false_eq_true, implies_true, true_and, and_true]
    refine ⟨?_, by omega⟩
    rintro x h1 h2 ⟨y, h3, h4⟩
    have := h0.1
    rw [e] at this
    cases this.symm.trans h3
    omega
  · rw [hpl]
    simp [SparesRange, Along, C57_history, Overwrites]

end Monoasm
