import Verif.Proofs.Progress
import Verif.Proofs.Simple
import Verif.Proofs.Exec
import Verif.Props.C52
/-
  C60: progress. At the code of a statement the processor is never stuck, except for the instructions
  that raise an exception on their operands (`X86.Stops`), which are listed by kind.

  In particular the assembler generates no undefined or reserved encoding, no forms with a missing
  effect, and it generates no aligned access other than those of the packed instructions.
-/

namespace Monoasm
open Spec X86

variable {base : Nat} {mem : Nat → Monoasm.Byte} {H : List Op} {n : Nat} {d : Data} {i : Inst Val Nat} {I : Instr}

/-- The instruction of an accepted statement has an effect, in all states in which it does not stop. -/
theorem C60_effect {rel next} (ha : Accepted i) (hI : encoded rel i = some I) (hc : I.isControl = false) :
    (∃ d', Described (I.absolute next) next d d') ↔ ¬ Stops next d I := by
  rw [← effect_some (encoded_usual ha hI) hc]
  constructor
  · rintro ⟨d', d1, u, h, -⟩
    exact ⟨_, h⟩
  · rintro ⟨⟨d1, u⟩, h⟩
    exact ⟨d1, d1, u, h, ⟨fun _ => rfl, fun _ => rfl, fun _ => rfl, fun _ => rfl, fun _ => rfl⟩, rfl⟩

/-- At the code of a statement, the processor makes a step if and only if the instruction does not
    stop. -/
theorem C60 (hA : Alloc base) (hr : NoRaw H) (hf : KeepsLabels (JitMemory.new base mem) H)
    (hn : H[n]? = some (.inst i)) (hR : Ready base mem H encoded n i) (hI : instrAt base mem H encoded n i = some I)
    (hd : Intact base mem H n d) :
    (∃ s, X86.Step Described ⟨placeW base mem H n, d⟩ s) ↔ ¬ Stops (placeW base mem H (n + 1)) d I := by
  obtain ⟨_, m, hm, -⟩ := hR.runs
  have ha : Accepted i := ⟨m, hm⟩
  constructor
  · rintro ⟨⟨r, d'⟩, h⟩
    rw [step_at hA hr hf hn hR hI hd] at h
    cases h with
    | other h1 h2 => exact (C60_effect ha hI h1).1 ⟨d', h2⟩
    | _ => intro h; cases h
  · intro h
    cases hc : I.isControl with
    | false =>
      obtain ⟨d', h⟩ := (C60_effect ha hI hc).2 h
      exact ⟨⟨_, d'⟩, (step_at hA hr hf hn hR hI hd).2 (.other hc h)⟩
    | true =>
      suffices ∃ r d', Exec Described (placeW base mem H (n + 1)) I d r d' by
        obtain ⟨r, d', h⟩ := this
        exact ⟨⟨r, d'⟩, (step_at hA hr hf hn hR hI hd).2 h⟩
      cases I <;> first | cases hc; done | exact ⟨_, _, .jmpRel⟩ | exact ⟨_, _, .jcc⟩ | exact ⟨_, _, .callRel⟩ | exact ⟨_, _, .jmpInd⟩ | exact ⟨_, _, .callInd⟩ | exact ⟨_, _, .ret⟩

variable {pre : List NewCall} {is : List (Inst Val Nat)}

/-- In a well-formed program whose statements are of the other kinds, the processor never stops at a
    statement. -/
theorem C60_program (hw : WellFormed pre is) (hA : Alloc base) (hq : ∀ i ∈ is, mayStop i = false) {s : State}
    (hs : AtStatement base mem pre is s) : ∃ s', X86.Step Described s s' := by
  obtain ⟨j, i, hj, hl, hd, hr, hi⟩ := hs
  obtain ⟨rip, d⟩ := s
  cases hr
  have hmem := List.mem_of_getElem? hj
  obtain ⟨t, ht⟩ := simple_runs hw base mem
  have hn := simple_label_at (pre := pre) hj
  have hv : Valid i := by
    rcases hw.meaningful i hmem with h | ⟨l, rfl⟩ | ⟨v, rfl⟩ | ⟨v, rfl⟩
    · exact h
    · cases hl
    · cases hd
    · cases hd
  obtain ⟨I, hI⟩ := encoded_some hv (dist (labelAddr (reach base mem (simple pre is))) (Spec.place base mem (simple pre is) (pre.length + j + 1)))
  exact (C60 hA (noRaw_simple pre is) (keepsLabels_runOps ht) hn (simple_ready hw hA mem hn) hI hi).2
    (quiet_stops (encoded_quiet (hq i hmem) hI))

/-- So it runs forever, or until it leaves the statements of the program, or until the program
    overwrites its own code. -/
theorem C60_runs (hw : WellFormed pre is) (hA : Alloc base) (hq : ∀ i ∈ is, mayStop i = false) (s : State) (k : Nat) :
    (∃ s', Steps Described k s s') ∨ ∃ j s', j < k ∧ Steps Described j s s' ∧ ¬ AtStatement base mem pre is s' := by
  induction k generalizing s with
  | zero => exact .inl ⟨s, .zero⟩
  | succ k ih =>
    by_cases hs : AtStatement base mem pre is s
    · obtain ⟨s1, h1⟩ := C60_program hw hA hq hs
      rcases ih s1 with ⟨s', h⟩ | ⟨j, s', hj, h, hn⟩
      · exact .inl ⟨s', .succ h1 h⟩
      · exact .inr ⟨j + 1, s', by omega, .succ h1 h, hn⟩
    · exact .inr ⟨0, s, by omega, .zero, hs⟩

/-- The kinds of statements are those that may stop: all others are executed in all states, these are
    not. -/
theorem C60_kinds {rel} (hI : encoded rel i = some I) : mayStop i = true ↔ ∃ next d, Stops next d I := by
  refine ⟨fun h => may_stops h hI, fun ⟨next, d, h⟩ => ?_⟩
  cases hm : mayStop i with
  | true => rfl
  | false => exact absurd h (quiet_stops (encoded_quiet hm hI))

/-- A loop: `l: subq rdi, 1; jne l; jmp l`. -/
def C60_loop : List (Inst Val Nat) := [.Label 0, .Sub .QWORD (.reg (.reg 7)) (.imm 1), .Jcc .Ne 0, .Jmp (.rel 0)]

/-- There is no state in which it stops, as long as its memory is not changed. -/
example (d : Data) (k : Nat) (hd : Loaded 0x10000000 (fun _ => 0xcc) (simple [.label] C60_loop) d) :
    AtStatement 0x10000000 (fun _ => 0xcc) [.label] C60_loop ⟨codeAt 0x10000000 (fun _ => 0xcc) [.label] C60_loop 0, d⟩
    ∧ ((∃ s', Steps Described k ⟨codeAt 0x10000000 (fun _ => 0xcc) [.label] C60_loop 0, d⟩ s')
      ∨ ∃ j s', j < k ∧ Steps Described j ⟨codeAt 0x10000000 (fun _ => 0xcc) [.label] C60_loop 0, d⟩ s'
        ∧ ¬ AtStatement 0x10000000 (fun _ => 0xcc) [.label] C60_loop s') := by
  have hw : WellFormed [.label] C60_loop := C52_check (by decide +kernel)
  have hA : Alloc 0x10000000 := ⟨by rw [PAGE_SIZE_eq]; decide, by decide, by rw [PAGE_SIZE_eq]; decide⟩
  have e1 : codeAt 0x10000000 (fun _ => 0xcc) [.label] C60_loop 0 = codeAt 0x10000000 (fun _ => 0xcc) [.label] C60_loop 1 := by decide +kernel
  have e2 : Spec.place 0x10000000 (fun _ => 0xcc) (simple [.label] C60_loop) 2 = 0x10000000 := by decide +kernel
  have e3 : Spec.place 0x10000000 (fun _ => 0xcc) (simple [.label] C60_loop) 3 = 0x10000004 := by decide +kernel
  refine ⟨⟨1, .Sub .QWORD (.reg (.reg 7)) (.imm 1), rfl, rfl, rfl, e1, fun a h1 h2 => hd a ?_ ?_⟩, C60_runs hw hA (by decide) _ k⟩
  · rw [e2.symm]; exact h1
  · have : a < 0x10000004 := by rw [← e3]; exact h2
    rw [PAGE_SIZE_eq]; omega

/-- `div rcx` stops if `rcx = 0`. -/
example (d : Data) (h : d.gpr rcx = 0) : Stops 0 d (.un .div .q (.gpr rcx)) := .div0 (by simp [Opd.read, Opd.value, h])

end Monoasm
