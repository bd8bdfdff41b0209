import Verif.Proofs.Evolve
import Verif.Props.C60
/-
  C65: programs that are patched while they grow. The history of calls generates code, in any order and on
  both pages, with any number of `finalize`s; between them, jumps and calls of the code generated so far
  are patched, any number of times, to labels that may be newer than the jumps. The processor executes the
  program in which each patched jump has the label of its last patch.
-/

namespace Monoasm
open Spec X86

variable {base : Nat} {mem : Nat → Monoasm.Byte} {K S : List Op} {E : Effect} {k n m : Nat} {i : Inst Val Nat} {d d' : Data} {s s' : State}

/-- A computable check: if it succeeds, the history is complete, and the check has found out what it
    stands for. -/
theorem C65_check (hA : Alloc base) (h : liveTrial base mem K = some S) : Complete base mem K S := liveTrial_complete hA h

/-- The check is exact: it rejects nothing else than histories that are not complete. -/
theorem C65_exact (hA : Alloc base) : Complete base mem K S ↔ liveTrial base mem K = some S :=
  ⟨complete_liveTrial hA, liveTrial_complete hA⟩

/-- What a complete history stands for is determined. -/
theorem C65_unique (hA : Alloc base) {S'} (h : Complete base mem K S) (h' : Complete base mem K S') : S = S' :=
  Option.some.inj ((complete_liveTrial hA h).symm.trans (complete_liveTrial hA h'))

/-- Whether a history is complete, and what it stands for, does not depend on the address and the contents
    of the memory; only the addresses handed to `apply_jmp_patch_address` have to move along. -/
theorem C65_anywhere {b1 b2 : Nat} {m1 m2 : Nat → Monoasm.Byte} (a1 : Alloc b1) (a2 : Alloc b2) (h : Complete b1 m1 K S) :
    Complete b2 m2 (K.map (Op.move b1 b2)) (S.map (Op.move b1 b2)) :=
  liveTrial_complete a2 (liveTrial_moved a1 a2 (complete_liveTrial a1 h))

/-- At the code of any of the statements, as long as that has not been overwritten by the program, the
    processor executes exactly the instruction that the statement now stands for. -/
theorem C65_step (hA : Alloc base) (h : Complete base mem K S) {I r} (hn : S[n]? = some (.inst i))
    (hI : instrAt base mem K encoded n i = some I) (hd : Intact base mem K n d) :
    X86.Step E ⟨placeW base mem K n, d⟩ ⟨r, d'⟩ ↔ Exec E (placeW base mem K (n + 1)) I d r d' :=
  live_step h hA hn hI hd

/-- `k` instructions of the program are `k` steps of the processor. -/
theorem C65_flow (hA : Alloc base) (h : Complete base mem K S) (hr : LiveFlow base mem K S encoded E k n d m d') :
    Steps E k ⟨placeW base mem K n, d⟩ ⟨placeW base mem K m, d'⟩ := by
  induction hr with
  | done => exact .zero
  | step h1 h2 h3 _ ih =>
    rw [placeW, h1]
    exact .succ (live_forward h hA h2 h3) ih

/-- The processor does nothing else: `k` steps through statements whose code has not been overwritten are
    `k` instructions of the program. -/
theorem C65_only (hA : Alloc base) (h : Complete base mem K S) (hr : Through (fun s => ∃ n, LiveAt base mem K S n s) E k s s')
    (hn : placeW base mem K n = s.rip) :
    ∃ m, LiveFlow base mem K S encoded E k n s.data m s'.data ∧ placeW base mem K m = s'.rip := by
  induction hr generalizing n with
  | zero _ => exact ⟨n, .done, hn⟩
  | @succ k s s1 s' h1 h2 h3 ih =>
    have hs1 : ∃ n, LiveAt base mem K S n s1 := by cases h3 <;> assumption
    obtain ⟨q, ⟨i, hi, hl, hd⟩, hrip, hI⟩ := h1
    obtain ⟨q1, -, hrip1, -⟩ := hs1
    have h4 : X86.Step E ⟨placeW base mem K q, s.data⟩ ⟨s1.rip, s1.data⟩ := by rw [← hrip]; exact h2
    rcases live_back h hA hi (complete_valid h hi hl hd) hI h4 with ⟨m1, h5, h6⟩ | h5
    · obtain ⟨m, h7, h8⟩ := ih h6
      exact ⟨m, .step (placeW_eq hA (hn.trans hrip)) hI h5 h7, h8⟩
    · exact absurd hrip1.symm (h5.2 q1)

/-- The statement at which the processor is, is determined by the address. -/
theorem C65_position (hA : Alloc base) (h : Complete base mem K S) (h1 : LiveAt base mem K S n s) (h2 : LiveAt base mem K S m s) : n = m := by
  obtain ⟨⟨i, hi, hl, hd⟩, hrip, -⟩ := h1
  obtain ⟨⟨j, hj, hl', hd'⟩, hrip', -⟩ := h2
  exact complete_apart h hA hi hj hl hd hl' hd' (placeW_eq hA (hrip.symm.trans hrip'))

/-- The processor is not stuck at a statement, unless that is of the kinds that may stop (C60). -/
theorem C65_progress (hA : Alloc base) (h : Complete base mem K S) (hn : S[n]? = some (.inst i)) (hm : mayStop i = false)
    (hs : LiveAt base mem K S n s) : ∃ s', X86.Step Described s s' := by
  obtain ⟨⟨j, hj, hl, hd⟩, hrip, hI⟩ := hs
  rw [hn] at hj
  cases hj
  obtain ⟨I, hI2⟩ := encoded_some (complete_valid h hn hl hd) (dist (labelAddr (reach base mem K)) (Spec.place base mem K (n + 1)))
  have hq := quiet_stops (next := placeW base mem K (n + 1)) (d := s.data) (encoded_quiet hm hI2)
  obtain ⟨rip, δ⟩ := s
  cases hrip
  cases hc : I.isControl with
  | false =>
    obtain ⟨d', h'⟩ := (C60_effect (complete_accepted h hn) hI2 hc).2 hq
    exact ⟨⟨_, d'⟩, (live_step h hA hn hI2 hI).2 (.other hc h')⟩
  | true =>
    suffices ∃ r d', Exec Described (placeW base mem K (n + 1)) I δ r d' by
      obtain ⟨r, d', h'⟩ := this
      exact ⟨⟨r, d'⟩, (live_step h hA hn hI2 hI).2 h'⟩
    cases I <;> first | cases hc; done | exact ⟨_, _, .jmpRel⟩ | exact ⟨_, _, .jcc⟩ | exact ⟨_, _, .callRel⟩ | exact ⟨_, _, .jmpInd⟩ | exact ⟨_, _, .callInd⟩ | exact ⟨_, _, .ret⟩

/-- A compiler that compiles a function when it is first called: the code of page 0 calls a stub, label 1;
    when the stub is reached, the function is generated on page 1, with a label that did not exist before,
    and the call is patched. Then the function is replaced by another one. -/
def C65_history : List Op :=
  [.new .label, .new .label, .bind_label 0, .inst (.Call (.rel 1)), .inst .Ret, .inst (.Label 1), .inst .Leave, .inst .Ret, .finalize,
   .new .label, .select_page 1, .inst (.Label 2), .inst (.Sub .QWORD (.reg (.reg 7)) (.imm 1)), .inst .Ret, .finalize,
   .apply_jmp_patch 0 2,
   .new .label, .inst (.Label 3), .inst (.Jmp (.rel 2)), .finalize, .apply_jmp_patch_address 0x10000000 3]

deriving instance DecidableEq for Op

theorem C65_history_ok : Complete 0x10000000 (fun _ => 0xcc) C65_history (C65_history.set 3 (.inst (.Call (.rel 3)))) :=
  C65_check ⟨by rw [PAGE_SIZE_eq]; decide, by decide, by rw [PAGE_SIZE_eq]; decide⟩ (by decide +kernel)

/-- It does so wherever the memory is. -/
example (hA : Alloc base) : Complete base mem
    (C65_history.dropLast ++ [.apply_jmp_patch_address base 3])
    (C65_history.dropLast.set 3 (.inst (.Call (.rel 3))) ++ [.apply_jmp_patch_address base 3]) :=
  C65_anywhere (m1 := fun _ => 0xcc) ⟨by rw [PAGE_SIZE_eq]; decide, by decide, by rw [PAGE_SIZE_eq]; decide⟩ hA C65_history_ok

/-- The call goes to the second function, which continues with the first one. -/
example (d : Data) (hd : Loaded 0x10000000 (fun _ => 0xcc) C65_history d) :
    ∃ d', Steps E 1 ⟨0x10000000, d⟩ ⟨placeW 0x10000000 (fun _ => 0xcc) C65_history 17, d'⟩
      ∧ (Intact 0x10000000 (fun _ => 0xcc) C65_history 18 d' → Steps E 2 ⟨0x10000000, d⟩ ⟨0x20000000, d'⟩) := by
  have hA : Alloc 0x10000000 := ⟨by rw [PAGE_SIZE_eq]; decide, by decide, by rw [PAGE_SIZE_eq]; decide⟩
  have h := C65_history_ok
  have e3 : Spec.place 0x10000000 (fun _ => 0xcc) C65_history 3 = 0x10000000 := by decide +kernel
  have e4 : Spec.place 0x10000000 (fun _ => 0xcc) C65_history 4 = 0x10000005 := by decide +kernel
  have hI : Intact 0x10000000 (fun _ => 0xcc) C65_history 3 d := by
    intro a h1 h2
    rw [e3] at h1
    rw [e4] at h2
    exact hd a (by omega) (by rw [PAGE_SIZE_eq]; omega)
  have s1 : LiveStep 0x10000000 (fun _ => 0xcc) C65_history (C65_history.set 3 (.inst (.Call (.rel 3)))) encoded E 3 d 17
      (d.push (placeW 0x10000000 (fun _ => 0xcc) C65_history 4)) := .call rfl ⟨.inl rfl, by decide +kernel⟩
  refine ⟨d.push (placeW 0x10000000 (fun _ => 0xcc) C65_history 4), ?_, fun hI2 => ?_⟩
  · have := C65_flow hA h (.step (n := 3) rfl hI s1 .done)
    rwa [show placeW 0x10000000 (fun _ => 0xcc) C65_history 3 = 0x10000000 by decide +kernel] at this
  · have := C65_flow hA h (.step (n := 3) rfl hI s1 (.step (m := 18) (n' := 11) (by decide +kernel) hI2 (.jmp rfl ⟨.inl rfl, by decide +kernel⟩) .done))
    rwa [show placeW 0x10000000 (fun _ => 0xcc) C65_history 3 = 0x10000000 by decide +kernel,
      show placeW 0x10000000 (fun _ => 0xcc) C65_history 11 = 0x20000000 by decide +kernel] at this

/-- Rejected: a patch of something that is not a jump, of a jump that is not resolved yet (its field would be
    overwritten by the next `finalize`), and to a label that is not bound. -/
example : liveTrial 0x10000000 (fun _ => 0xcc) [.new .label, .bind_label 0, .inst .Ret, .finalize, .apply_jmp_patch 0 0] = none
    ∧ liveTrial 0x10000000 (fun _ => 0xcc) [.new .label, .new .label, .bind_label 0, .inst (.Jmp (.rel 1)), .apply_jmp_patch 0 0, .bind_label 1, .finalize] = none
    ∧ liveTrial 0x10000000 (fun _ => 0xcc) [.new .label, .new .label, .bind_label 0, .inst (.Jmp (.rel 0)), .finalize, .apply_jmp_patch 0 1] = none := by
  decide +kernel

end Monoasm
