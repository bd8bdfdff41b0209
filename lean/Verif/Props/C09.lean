import Verif.Proofs.Refer
/-
  C09: relative relocations resolve to the label.

  Histories here may contain any calls, with panics caught, except direct calls of `save_reloc`
  (which announces a field the caller has to emit), and in `C09_statement_partial` `finalize`s that lose
  the label table. Labels may be bound
  before or after the reference, on any page; any number of references is resolved.

  The recorded offset is measured from the field to the end of the instruction for every statement
  except `roundpd` with a label, where it is one byte short (see also C25).
-/

namespace Monoasm
open Spec

variable {base : Nat} {mem : Nat → Byte} {s' : JitMemory} {l : DestLabel} {p : Page} {off : BitVec 8} {pos a : Nat}

/-- Every relative field recorded for a label that is bound after the `finalize`: the 32-bit field,
    as a signed number, plus the address of the field, plus the recorded offset, is the address of
    the label. -/
theorem C09_field {h : List Op} (ha : Alloc base) (hr : NoRaw h)
    (hfin : JitMemory.finalize (reach base mem h) = .ok () s')
    (ht : TargetType.rel p off pos ∈ targets (reach base mem h) l) (hl : HasAddress s' l a) :
    ∃ v : BitVec 32, bytes s'.mem (addrOf base p pos) 4 = littleEndian 4 v.toNat
      ∧ v.toInt + (addrOf base p pos + off.toNat : Nat) = a :=
  rel_field (finalize_hinv (hinv_reach (base := base) (mem := mem) hr) hfin) ha.pos ht hl

/-- Every label operand of a statement is recorded: four bytes among those the statement emits. -/
theorem C09_recorded {i s s1} (hi : Runs i s s1) (hm : i.mentions l) (hne : i ≠ .Label l) :
    ∃ off pos, TargetType.rel s.page off pos ∈ added s s1 l := by
  obtain ⟨p, off, pos, h⟩ := mention_added hi hm hne
  obtain ⟨its, _, hr⟩ := runs_items hi
  obtain ⟨_, _, _, _, e⟩ := added_ran hr h
  cases e
  exact ⟨_, _, h⟩

/-- A reference made by a statement `i`, resolved by the first `finalize` at which its label is
    bound, however much later: the field plus the address after the instruction is the address of
    the label. Not for `roundpd` with a label. -/
theorem C09_statement_partial {h1 h2 : List Op} {i : Inst V DestLabel} {s1 : JitMemory} (ha : Alloc base)
    (hr : NoRaw (h1 ++ .inst i :: h2)) (hf : KeepsLabels (JitMemory.new base mem) (h1 ++ .inst i :: h2))
    (hi : Runs i (reach base mem h1) s1) (hround : ∀ a b m l, i = .Roundpd a b m → l ∉ b.labels)
    (ht : TargetType.rel p off pos ∈ added (reach base mem h1) s1 l)
    (hu : UnboundAtFinalize l s1 h2)
    (hfin : JitMemory.finalize (reach base mem (h1 ++ .inst i :: h2)) = .ok () s') (hl : HasAddress s' l a) :
    p = (reach base mem h1).page ∧ cursor (reach base mem h1) p ≤ pos ∧ pos + 4 ≤ cursor s1 p
    ∧ ∃ v : BitVec 32, bytes s'.mem (addrOf base p pos) 4 = littleEndian 4 v.toNat
      ∧ v.toInt + (addrOf base p (cursor s1 p) : Nat) = a := by
  obtain ⟨e1, e2, e3, e4⟩ := added_end hi hround ht
  refine ⟨e1, e2, e3, ?_⟩
  have hr1 := (noRaw_append.1 hr).1
  have hr2 := (noRaw_append.1 hr).2
  rw [noRaw_cons] at hr2
  have hf1 := (keepsLabels_append.1 hf).1
  have hf2 := (keepsLabels_append.1 hf).2
  have hs : ((Op.inst i).run (reach base mem h1)).state = s1 := inst_state hi
  have hi1 : HInv base s1 := by
    rw [← hs]; exact hinv_op (hinv_reach (base := base) (mem := mem) hr1) (by simp)
  have hf3 : KeepsLabels s1 h2 := by rw [← hs]; exact hf2.2
  have ht2 := pending_stays hi1 hr2.2 hf3 (added_mem ht) hu
  have e : reach base mem (h1 ++ .inst i :: h2) = runCaught h2 s1 := by
    rw [reach, runCaught_append, runCaught_cons]
    show runCaught h2 ((Op.inst i).run (reach base mem h1)).state = _
    rw [hs]
  rw [← e] at ht2
  obtain ⟨v, h3, h4⟩ := C09_field ha hr hfin ht2 hl
  refine ⟨v, h3, ?_⟩
  rw [← e4, ← h4]
  simp only [addrOf]
  omega

/-- **False for `roundpd` with a label**: the recorded field leads to the label from one byte before
    the end of the instruction. -/
theorem C09_roundpd_wrong {h : List Op} {x b m} {s1 : JitMemory} (ha : Alloc base) (hr : NoRaw h)
    (hi : Runs (.Roundpd x b m) (reach base mem h) s1)
    (ht : TargetType.rel p off pos ∈ added (reach base mem h) s1 l)
    (hfin : JitMemory.finalize s1 = .ok () s') (hl : HasAddress s' l a) :
    ∃ v : BitVec 32, bytes s'.mem (addrOf base p pos) 4 = littleEndian 4 v.toNat
      ∧ v.toInt + (addrOf base p (cursor s1 p) : Nat) = a + 1 := by
  have hi1 : HInv base s1 := by
    rw [← inst_state hi]; exact hinv_op (hinv_reach (base := base) (mem := mem) hr) (by simp)
  obtain ⟨v, h3, h4⟩ := rel_field (finalize_hinv hi1 hfin) ha.pos (added_mem ht) hl
  obtain ⟨_, _, h5⟩ := added_round hi ht
  refine ⟨v, h3, ?_⟩
  rw [← h5, ← h4]
  simp only [addrOf]
  omega

/-- A reference from page 0 to a label bound later on page 1, two references back to a label of page
    0, and one to a data object. -/
def C09_history : List Op :=
  [.new .label, .new .label, .new (.data_i64 7), .bind_label 1, .inst (.Jmp (.rel 0)), .inst (.Call (.rel 1)),
    .inst (.Jcc .Eq 1), .inst (.Lea (.reg (.reg 0)) (.ind ⟨.reg 16, .none, .label 2⟩)),
    .select_page 1, .inst .Ret, .bind_label 0, .inst .Ret]

example :
    let s := reach 0x10000000 (fun _ => 0xcc) C09_history
    NoRaw C09_history ∧ KeepsLabels (JitMemory.new 0x10000000 (fun _ => 0xcc)) C09_history
    ∧ (∃ s', JitMemory.finalize s = .ok () s' ∧ HasAddress s' 0 0x20000001 ∧ HasAddress s' 1 0x10000000
        ∧ HasAddress s' 2 0x30000000)
    ∧ targets s 0 = [.rel 0 4 1] ∧ targets s 1 = [.rel 0 4 6, .rel 0 4 12] ∧ targets s 2 = [.rel 0 4 19] := by
  have h1 : NoRaw C09_history := by decide +kernel
  have h2 : KeepsLabels (JitMemory.new 0x10000000 (fun _ => 0xcc)) C09_history := by decide +kernel
  obtain ⟨s', e⟩ := Res.isOk_iff.1 (show (JitMemory.finalize (reach 0x10000000 (fun _ => 0xcc) C09_history)).isOk = true by
    decide +kernel)
  have e' : s' = (JitMemory.finalize (reach 0x10000000 (fun _ => 0xcc) C09_history)).state := by rw [e]; rfl
  have f := finalize_hinv (hinv_reach h1) e
  have hl : s'.locOf 0 = some (1, 1) ∧ s'.locOf 1 = some (0, 0) ∧ s'.locOf 2 = some (2, 0) := by
    rw [e']; decide +kernel
  refine ⟨h1, h2, ⟨s', e, ?_, ?_, ?_⟩, ?_, ?_, ?_⟩
  · simpa [addrOf, PAGE_SIZE] using hasAddress_of_loc f.inv (by decide) hl.1
  · simpa [addrOf, PAGE_SIZE] using hasAddress_of_loc f.inv (by decide) hl.2.1
  · simpa [addrOf, PAGE_SIZE] using hasAddress_of_loc f.inv (by decide) hl.2.2
  · decide +kernel
  · decide +kernel
  · decide +kernel

end Monoasm
