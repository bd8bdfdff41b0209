import Verif.Proofs.Program
import Verif.Proofs.Frame
/-
  C44: whole-program correctness.

  A program is any history of calls: statements on either page, interleaved with label creation and
  binding, alignment, constants, data, jump patches, caught panics and any number of `finalize`s.
  The theorems speak of an arbitrary run of consecutive statements `is` of it (`h1` is what comes
  before, `h` what comes after).

  `C44_partial` is restricted to statements that are encoded as written (`Ordinary`): C25 and C33 show
  that `roundpd` with a label operand and `cvttsd2siq` are encoded as other instructions. `C44_encoded`
  and `C44_instruction` are not restricted: they say of all statements what they are encoded as.
-/

namespace Monoasm
open Spec

variable {base : Nat} {mem : Nat → Byte} {h1 h h2 h3 : List Op} {is is1 is2 : List (Inst Val Nat)} {s1 s' : JitMemory}
  {l : DestLabel}

/-- After a `finalize` at which the labels they mention are bound, and whatever follows it, memory
    at the place where the statements `is` were assembled disassembles to exactly `is`, read as
    `encoded` says, with every label operand meaning the address that the label then has. -/
theorem C44_encoded (hA : Alloc base) (e : h = h2 ++ .finalize :: h3) (hr : NoRaw (h1 ++ is.map .inst ++ h))
    (hf : KeepsLabels (JitMemory.new base mem) (h1 ++ is.map .inst ++ h))
    (hrun : RunsAll is (reach base mem h1) s1) (ho : ∀ i ∈ is, Meaningful i)
    (hk : SparesRange (here (reach base mem h1)) (here s1 - here (reach base mem h1)) s1 h)
    (hb : ∀ i ∈ is, ∀ l, i.mentions l → BindsOnce l (JitMemory.new base mem) (h1 ++ is.map .inst ++ h))
    (hfin : JitMemory.finalize (reach base mem (h1 ++ is.map .inst ++ h2)) = .ok () s') (hbd : AllBound s' is)
    (tail : List Byte) :
    let a := here (reach base mem h1)
    let e := reach base mem (h1 ++ is.map .inst ++ h)
    Listing encoded (labelAddr e) a (bytes e.mem a (here s1 - a) ++ tail) is tail := by
  have hl := linked_reach hA e hr hf hrun hk hb hfin hbd
  refine listing hrun ho (fun _ _ _ => rfl) hl (fun x hx1 hx2 => ?_) tail
  have hi0 := inv_reach base mem h1
  have hi1 : Inv base s1 := by
    rw [show s1 = reach base mem (h1 ++ is.map .inst) by
      rw [reach, runCaught_append]; exact (runsAll_caught hrun).symm]
    exact inv_reach _ _ _
  obtain ⟨its, hran⟩ := runsAll_ran hrun
  have hp : (reach base mem h1).page < 3 := Nat.lt_trans hi0.page (by decide)
  have hc := hi1.counter (reach base mem h1).page
  have hx3 : x - (base + PAGE_SIZE * (reach base mem h1).page) ≤ PAGE_SIZE := by
    simp only [here, hi1.contents, hran.page] at hx2
    omega
  have := near_labelAddr (inv_reach base mem (h1 ++ is.map .inst ++ h)) hA.pos hp hx3
  have ex : base + PAGE_SIZE * (reach base mem h1).page + (x - (base + PAGE_SIZE * (reach base mem h1).page)) = x := by
    simp only [here, hi0.contents] at hx1
    omega
  rwa [ex] at this

/-- Statements that are encoded as written. -/
theorem C44_partial (hA : Alloc base) (e : h = h2 ++ .finalize :: h3) (hr : NoRaw (h1 ++ is.map .inst ++ h))
    (hf : KeepsLabels (JitMemory.new base mem) (h1 ++ is.map .inst ++ h))
    (hrun : RunsAll is (reach base mem h1) s1) (ho : ∀ i ∈ is, Ordinary i)
    (hk : SparesRange (here (reach base mem h1)) (here s1 - here (reach base mem h1)) s1 h)
    (hb : ∀ i ∈ is, ∀ l, i.mentions l → BindsOnce l (JitMemory.new base mem) (h1 ++ is.map .inst ++ h))
    (hfin : JitMemory.finalize (reach base mem (h1 ++ is.map .inst ++ h2)) = .ok () s') (hbd : AllBound s' is)
    (tail : List Byte) :
    let a := here (reach base mem h1)
    let e := reach base mem (h1 ++ is.map .inst ++ h)
    Listing meaning (labelAddr e) a (bytes e.mem a (here s1 - a) ++ tail) is tail :=
  listing_read (fun i hi rel => ordinary_encoded (ho i hi) rel)
    (C44_encoded hA e hr hf hrun (fun i hi => (ho i hi).sort) hk hb hfin hbd tail)

/-- A single instruction. -/
theorem C44_instruction {i : Inst Val Nat} {I} (hA : Alloc base) (e : h = h2 ++ .finalize :: h3)
    (hr : NoRaw (h1 ++ [.inst i] ++ h)) (hf : KeepsLabels (JitMemory.new base mem) (h1 ++ [.inst i] ++ h))
    (hrun : Runs i (reach base mem h1) s1)
    (hk : SparesRange (here (reach base mem h1)) (here s1 - here (reach base mem h1)) s1 h)
    (hb : ∀ l, i.mentions l → BindsOnce l (JitMemory.new base mem) (h1 ++ [.inst i] ++ h))
    (hfin : JitMemory.finalize (reach base mem (h1 ++ [.inst i] ++ h2)) = .ok () s')
    (hbd : ∀ l, i.mentions l → ∃ a, HasAddress s' l a)
    (hm : encoded (dist (labelAddr (reach base mem (h1 ++ [.inst i] ++ h))) (here s1)) i = some I)
    (tail : List Byte) :
    let a := here (reach base mem h1)
    let e := reach base mem (h1 ++ [.inst i] ++ h)
    X86.decode (bytes e.mem a (here s1 - a) ++ tail) = some (I, tail) := by
  intro a e'
  have hrun' : RunsAll [i] (reach base mem h1) s1 := runsAll_cons.2 ⟨s1, hrun, runsAll_nil.2 rfl⟩
  have hl := linked_reach (is := [i]) hA e hr hf hrun' hk (by simpa using hb) hfin (by simpa [AllBound] using hbd)
  refine decode_encoded hrun hl (fun x hx1 hx2 => ?_) hm tail
  have hi0 := inv_reach base mem h1
  have hi1 : Inv base s1 := by
    rw [show s1 = reach base mem (h1 ++ [.inst i]) by
      rw [reach, runCaught_append]; exact (runsAll_caught hrun').symm]
    exact inv_reach _ _ _
  obtain ⟨its, hran⟩ := runsAll_ran hrun'
  have hp : (reach base mem h1).page < 3 := Nat.lt_trans hi0.page (by decide)
  have hc := hi1.counter (reach base mem h1).page
  have hx3 : x - (base + PAGE_SIZE * (reach base mem h1).page) ≤ PAGE_SIZE := by
    simp only [here, hi1.contents, hran.page] at hx2
    omega
  have := near_labelAddr (inv_reach base mem (h1 ++ [.inst i] ++ h)) hA.pos hp hx3
  have ex : base + PAGE_SIZE * (reach base mem h1).page + (x - (base + PAGE_SIZE * (reach base mem h1).page)) = x := by
    simp only [here, hi0.contents] at hx1
    omega
  rwa [ex] at this

/-- A single instruction that is encoded as written. -/
theorem C44_instruction_partial {i : Inst Val Nat} {I} (hA : Alloc base) (e : h = h2 ++ .finalize :: h3)
    (hr : NoRaw (h1 ++ [.inst i] ++ h)) (hf : KeepsLabels (JitMemory.new base mem) (h1 ++ [.inst i] ++ h))
    (hrun : Runs i (reach base mem h1) s1) (ho : Ordinary i)
    (hk : SparesRange (here (reach base mem h1)) (here s1 - here (reach base mem h1)) s1 h)
    (hb : ∀ l, i.mentions l → BindsOnce l (JitMemory.new base mem) (h1 ++ [.inst i] ++ h))
    (hfin : JitMemory.finalize (reach base mem (h1 ++ [.inst i] ++ h2)) = .ok () s')
    (hbd : ∀ l, i.mentions l → ∃ a, HasAddress s' l a)
    (hm : meaning (dist (labelAddr (reach base mem (h1 ++ [.inst i] ++ h))) (here s1)) i = some I)
    (tail : List Byte) :
    let a := here (reach base mem h1)
    let e := reach base mem (h1 ++ [.inst i] ++ h)
    X86.decode (bytes e.mem a (here s1 - a) ++ tail) = some (I, tail) :=
  C44_instruction hA e hr hf hrun hk hb hfin hbd ((ordinary_encoded ho _).symm.trans hm) tail

/-- A label statement `l:` in the program gives the label the address of the statement that follows
    it, at the end of the history. -/
theorem C44_label (hA : Alloc base) (hr : NoRaw (h1 ++ .inst (.Label l) :: h))
    (hf : KeepsLabels (JitMemory.new base mem) (h1 ++ .inst (.Label l) :: h))
    (hb : BindsOnce l (JitMemory.new base mem) (h1 ++ .inst (.Label l) :: h))
    (hl : l < (reach base mem h1).labels.length) :
    HasAddress (reach base mem (h1 ++ .inst (.Label l) :: h)) l (here (reach base mem h1)) := by
  obtain ⟨s2, e1, e2, e3, e4, e5, e6⟩ := bind_run (p := (reach base mem h1).page) hl
  have e : ((Op.inst (.Label l)).run (runCaught h1 (JitMemory.new base mem))).state = s2 := by
    show ((Op.bind_label l).run (reach base mem h1)).state = s2
    rw [show (Op.bind_label l).run (reach base mem h1) = .ok () s2 from e1]; rfl
  obtain ⟨hr1, hr2⟩ := noRaw_append.1 hr
  rw [noRaw_cons] at hr2
  obtain ⟨hf1, hf2, hf3⟩ := keepsLabels_append.1 hf
  obtain ⟨hb1, hb2, hb3⟩ := along_append.1 hb
  have hi := hinv_reach (base := base) (mem := mem) hr1
  have hs := sound_caught (hinv_new base mem) hr1 hf1 hb1 (sound_new base mem l)
  have hi2 := hinv_op hi hr2.1
  have hs2 := sound_op hi hr2.1 hf2 hb2 hs
  rw [reach, runCaught_append, runCaught_cons]
  refine bound_caught hA hi2 hr2.2 hf3 hb3 hs2 ?_
  have e' : ((Op.inst (.Label l)).run (reach base mem h1)).state = s2 := e
  rw [e'] at hi2 ⊢
  have := hasAddress_of_loc hi2.inv hA.pos e2
  simpa only [addrOf, here, hi.inv.contents] using this

/-- So does a call of `bind_label`. -/
theorem C44_bind (hA : Alloc base) (hr : NoRaw (h1 ++ .bind_label l :: h))
    (hf : KeepsLabels (JitMemory.new base mem) (h1 ++ .bind_label l :: h))
    (hb : BindsOnce l (JitMemory.new base mem) (h1 ++ .bind_label l :: h))
    (hl : l < (reach base mem h1).labels.length) :
    HasAddress (reach base mem (h1 ++ .bind_label l :: h)) l (here (reach base mem h1)) := by
  obtain ⟨s2, e1, e2, e3, e4, e5, e6⟩ := bind_run (p := (reach base mem h1).page) hl
  have e : ((Op.bind_label l).run (runCaught h1 (JitMemory.new base mem))).state = s2 := by
    show ((Op.bind_label l).run (reach base mem h1)).state = s2
    rw [show (Op.bind_label l).run (reach base mem h1) = .ok () s2 from e1]; rfl
  obtain ⟨hr1, hr2⟩ := noRaw_append.1 hr
  rw [noRaw_cons] at hr2
  obtain ⟨hf1, hf2, hf3⟩ := keepsLabels_append.1 hf
  obtain ⟨hb1, hb2, hb3⟩ := along_append.1 hb
  have hi := hinv_reach (base := base) (mem := mem) hr1
  have hs := sound_caught (hinv_new base mem) hr1 hf1 hb1 (sound_new base mem l)
  have hi2 := hinv_op hi hr2.1
  have hs2 := sound_op hi hr2.1 hf2 hb2 hs
  rw [reach, runCaught_append, runCaught_cons]
  refine bound_caught hA hi2 hr2.2 hf3 hb3 hs2 ?_
  have e' : ((Op.bind_label l).run (reach base mem h1)).state = s2 := e
  rw [e'] at hi2 ⊢
  have := hasAddress_of_loc hi2.inv hA.pos e2
  simpa only [addrOf, here, hi.inv.contents] using this

/-- The hypothesis `BindsOnce` is met by a label that is created by `label()` and bound by (at most)
    one call after that. -/
theorem C44_once {b : Op} {hc hm ht : List Op} (hf : KeepsLabels (JitMemory.new base mem) (hc ++ .new .label :: hm ++ b :: ht))
    (h0 : ∀ op ∈ hc, ¬ op.binds (countNew hc)) (h1 : ∀ op ∈ hm, ¬ op.binds (countNew hc))
    (h2 : ∀ op ∈ ht, ¬ op.binds (countNew hc)) :
    BindsOnce (countNew hc) (JitMemory.new base mem) (hc ++ .new .label :: hm ++ b :: ht) := by
  have hf1 := (keepsLabels_append.1 hf).1
  refine along_append.2 ⟨bindsOnce_none ?_, fun _ => ⟨?_, ?_⟩, bindsOnce_none h2⟩
  · intro op hop
    rcases List.mem_append.1 hop with h | h
    · exact h0 op h
    · rcases List.mem_cons.1 h with rfl | h
      · exact id
      · exact h1 op h
  · have hl := label_reach hf1
    have hn := noAddress_unbound hl.1 (hl.2.2 h1)
    intro a ha
    have := hn.1.symm.trans ha.1
    cases this
  · exact (label_reach hf1).2.1

/-- ... and by a label that no call binds, such as those of constants and data. -/
theorem C44_once_object (hb : ∀ op ∈ h, ¬ op.binds l) : BindsOnce l (JitMemory.new base mem) h := bindsOnce_none hb

/-- A program: label 0 is bound on page 1 after a `finalize`; label 1 is a constant; label 2 is the
    start of the loop on page 0. -/
def C44_before : List Op := [.new .label, .new (.const_i64 7), .new .label, .inst .Leave]
def C44_code : List (Inst Val Nat) :=
  [.Label 2, .Movq (.reg (.reg 0)) (.ind ⟨.reg 16, .none, .label 1⟩), .Jcc .Ne 2, .Call (.rel 0), .Ret]
def C44_after : List Op := [.finalize, .select_page 1, .inst .Int3, .inst (.Label 0), .inst .Ret]
def C44_end : List Op := [.inst .Ret, .finalize]

example : ∃ s1 s', 
    let H := C44_before ++ C44_code.map .inst ++ (C44_after ++ .finalize :: C44_end)
    NoRaw H ∧ KeepsLabels (JitMemory.new 0x10000000 fun _ => 0xcc) H
    ∧ RunsAll C44_code (reach 0x10000000 (fun _ => 0xcc) C44_before) s1
    ∧ (∀ i ∈ C44_code, Ordinary i)
    ∧ SparesRange 0x10000001 (here s1 - 0x10000001) s1 (C44_after ++ .finalize :: C44_end)
    ∧ (∀ i ∈ C44_code, ∀ l, i.mentions l → BindsOnce l (JitMemory.new 0x10000000 fun _ => 0xcc) H)
    ∧ JitMemory.finalize (reach 0x10000000 (fun _ => 0xcc) (C44_before ++ C44_code.map .inst ++ C44_after)) = .ok () s'
    ∧ AllBound s' C44_code := by
  have hf : KeepsLabels (JitMemory.new 0x10000000 fun _ => 0xcc)
      (C44_before ++ C44_code.map .inst ++ (C44_after ++ .finalize :: C44_end)) := by decide +kernel
  have hm : ∀ i ∈ C44_code, ∀ l, i.mentions l → l = 0 ∨ l = 1 ∨ l = 2 := by
    simp [C44_code, Inst.mentions, Inst.labels, MovOperand.labels, IndAddr.labels, MDisp.labels, Dest.labels]
  obtain ⟨s', e⟩ := Res.isOk_iff.1 (show (JitMemory.finalize (reach 0x10000000 (fun _ => 0xcc)
    (C44_before ++ C44_code.map .inst ++ C44_after))).isOk = true by decide +kernel)
  have e' : s' = (JitMemory.finalize (reach 0x10000000 (fun _ => 0xcc)
    (C44_before ++ C44_code.map .inst ++ C44_after))).state := by rw [e]; rfl
  have hloc : (s'.locOf 0).isSome ∧ (s'.locOf 1).isSome ∧ (s'.locOf 2).isSome := by rw [e']; decide +kernel
  have hi := (finalize_run (inv_reach _ _ _) e).inv
  have hadr : ∀ l, (s'.locOf l).isSome → ∃ a, HasAddress s' l a := by
    intro l hl
    obtain ⟨⟨p, c⟩, h⟩ := Option.isSome_iff_exists.1 hl
    exact ⟨_, hasAddress_of_loc hi (by decide) h⟩
  obtain ⟨s1, h1⟩ : ∃ s1, RunsAll C44_code (reach 0x10000000 (fun _ => 0xcc) C44_before) s1 := by
    have : ∃ m, compileAll C44_code = .ok m ∧ (m (reach 0x10000000 (fun _ => 0xcc) C44_before)).isOk = true :=
      ⟨_, rfl, by decide +kernel⟩
    obtain ⟨m, h1, h2⟩ := this
    obtain ⟨s1, h2⟩ := Res.isOk_iff.1 h2
    exact ⟨s1, m, h1, h2⟩
  refine ⟨s1, s', by decide +kernel, hf, h1, ?_, ?_, ?_, e, ?_⟩
  · intro i hi
    simp only [C44_code, List.mem_cons, List.not_mem_nil, or_false] at hi
    rcases hi with rfl | rfl | rfl | rfl | rfl
    · exact ⟨.inr (.inl ⟨_, rfl⟩), by simp, by simp⟩
    · exact ⟨.inl ⟨fun _ => 0, _, rfl⟩, by simp, by simp⟩
    · exact ⟨.inl ⟨fun _ => 0, _, rfl⟩, by simp, by simp⟩
    · exact ⟨.inl ⟨fun _ => 0, _, rfl⟩, by simp, by simp⟩
    · exact ⟨.inl ⟨fun _ => 0, _, rfl⟩, by simp, by simp⟩
  · simp [SparesRange, Along, C44_after, C44_end, Overwrites]
  · intro i hi l hl
    rcases hm i hi l hl with rfl | rfl | rfl
    · exact C44_once (b := .inst (.Label 0)) (hc := []) 
        (hm := [.new (.const_i64 7), .new .label, .inst .Leave] ++ C44_code.map .inst ++ [.finalize, .select_page 1, .inst .Int3])
        (ht := [.inst .Ret, .finalize] ++ C44_end) hf (by simp) (by simp [C44_code, Op.binds, countNew])
        (by simp [Op.binds, C44_end])
    · exact C44_once_object (by simp [C44_before, C44_code, C44_after, C44_end, Op.binds])
    · exact C44_once (b := .inst (.Label 2)) (hc := [.new .label, .new (.const_i64 7)]) 
        (hm := [.inst .Leave]) (ht := C44_code.tail.map .inst ++ (C44_after ++ .finalize :: C44_end)) hf
        (by simp [Op.binds, countNew]) (by simp [Op.binds, countNew]) (by simp [C44_code, C44_after, Op.binds, countNew, C44_end])
  · intro i hi l hl
    rcases hm i hi l hl with rfl | rfl | rfl
    · exact hadr _ hloc.1
    · exact hadr _ hloc.2.1
    · exact hadr _ hloc.2.2

end Monoasm
