import Verif.Proofs.Converse
import Verif.Props.C52
/-
  C61: a well-formed program does nothing that is not in its source. This is the converse of C49, for
  runs of any length: what the processor executes while it is at statements of the program is a run of
  the source program.
-/

namespace Monoasm
open Spec X86

variable {base : Nat} {mem : Nat → Monoasm.Byte} {pre : List NewCall} {is : List (Inst Val Nat)} {E : Effect} {k n : Nat} {s s' : State}

/-- Whatever the processor does between statements, `k` steps through statements of the program whose
    code has not been overwritten are `k` instructions of the source program. -/
theorem C61 (hw : WellFormed pre is) (hA : Alloc base) (h : Through (AtStatement base mem pre is) E k s s')
    (hn : placeW base mem (simple pre is) n = s.rip) :
    ∃ m, SourceRun base mem (simple pre is) encoded E k n s.data m s'.data ∧ placeW base mem (simple pre is) m = s'.rip := by
  induction h generalizing n with
  | zero _ => exact ⟨n, .done, hn⟩
  | @succ k s s1 s' h1 h2 h3 ih =>
    have hs1 : AtStatement base mem pre is s1 := by cases h3 <;> assumption
    obtain ⟨m1, h4, h5⟩ := source_step hw hA h1 hs1 h2 hn
    obtain ⟨m, h6, h7⟩ := ih h5
    exact ⟨m, by rw [Nat.add_comm]; exact sourceRun_append h4 h6, h7⟩

/-- The same with the statements read as written, if none of them is of the two kinds of C25 and C33. -/
theorem C61_written (hw : WellFormed pre is) (hA : Alloc base) (ho : ∀ i ∈ is, asWrittenB i = true)
    (h : Through (AtStatement base mem pre is) E k s s') (hn : placeW base mem (simple pre is) n = s.rip) :
    ∃ m, SourceRun base mem (simple pre is) meaning E k n s.data m s'.data ∧ placeW base mem (simple pre is) m = s'.rip := by
  obtain ⟨m, h1, h2⟩ := C61 hw hA h hn
  refine ⟨m, sourceRun_read (fun n i hi rel => ?_) h1, h2⟩
  obtain ⟨j, -, hj⟩ := simple_at hi
  have hmem := List.mem_of_getElem? hj
  exact ordinary_encoded (asWrittenB_sound (hw.meaningful i hmem) (ho i hmem)) rel

/-- And conversely (C49). -/
theorem C61_back (hw : WellFormed pre is) (hA : Alloc base) {m : Nat} {d d' : Data}
    (h : SourceRun base mem (simple pre is) encoded E k n d m d') :
    Steps E k ⟨placeW base mem (simple pre is) n, d⟩ ⟨placeW base mem (simple pre is) m, d'⟩ := by
  obtain ⟨t, ht⟩ := simple_runs hw base mem
  exact C49_encoded hA (noRaw_simple pre is) (keepsLabels_runOps ht) h

/-- The statement at which the processor is, is determined by the address. -/
theorem C61_position (hw : WellFormed pre is) (hA : Alloc base) {j j' : Nat} {i i' : Inst Val Nat}
    (hj : is[j]? = some i) (hj' : is[j']? = some i') (hl : placedLabel i = none) (hd : isData i = false)
    (hl' : placedLabel i' = none) (hd' : isData i' = false) (h : codeAt base mem pre is j = codeAt base mem pre is j') : j = j' := by
  have e := placeW_inj hw hA h
  obtain ⟨-, h1⟩ := place_strict (mem := mem) hw hA hj hl hd
  obtain ⟨-, h2⟩ := place_strict (mem := mem) hw hA hj' hl' hd'
  rcases Nat.lt_trichotomy j j' with hlt | heq | hlt
  · have := place_mono hw base mem (show pre.length + j + 1 ≤ pre.length + j' by omega)
    omega
  · exact heq
  · have := place_mono hw base mem (show pre.length + j' + 1 ≤ pre.length + j by omega)
    omega

/-- The program `l: jmp l`. -/
def C61_loop : List (Inst Val Nat) := [.Label 0, .Jmp (.rel 0)]

/-- It runs through its statements forever, and so does the source program. -/
example (d : Data) (k : Nat) (hd : Loaded 0x10000000 (fun _ => 0xcc) (simple [.label] C61_loop) d) :
    Through (AtStatement 0x10000000 (fun _ => 0xcc) [.label] C61_loop) E k
      ⟨codeAt 0x10000000 (fun _ => 0xcc) [.label] C61_loop 1, d⟩ ⟨codeAt 0x10000000 (fun _ => 0xcc) [.label] C61_loop 1, d⟩
    ∧ ∃ m, SourceRun 0x10000000 (fun _ => 0xcc) (simple [.label] C61_loop) meaning E k 2 d m d := by
  have hw : WellFormed [.label] C61_loop := C52_check (by decide +kernel)
  have hA : Alloc 0x10000000 := ⟨by rw [PAGE_SIZE_eq]; decide, by decide, by rw [PAGE_SIZE_eq]; decide⟩
  have e2 : Spec.place 0x10000000 (fun _ => 0xcc) (simple [.label] C61_loop) 2 = 0x10000000 := by decide +kernel
  have e3 : Spec.place 0x10000000 (fun _ => 0xcc) (simple [.label] C61_loop) 3 = 0x10000005 := by decide +kernel
  have hI : Intact 0x10000000 (fun _ => 0xcc) (simple [.label] C61_loop) 2 d := by
    intro a h1 h2
    rw [e2] at h1
    rw [e3] at h2
    exact hd a h1 (by rw [PAGE_SIZE_eq]; omega)
  have hs : AtStatement 0x10000000 (fun _ => 0xcc) [.label] C61_loop ⟨codeAt 0x10000000 (fun _ => 0xcc) [.label] C61_loop 1, d⟩ :=
    ⟨1, .Jmp (.rel 0), rfl, rfl, rfl, rfl, hI⟩
  have hstep : X86.Step E ⟨codeAt 0x10000000 (fun _ => 0xcc) [.label] C61_loop 1, d⟩ ⟨codeAt 0x10000000 (fun _ => 0xcc) [.label] C61_loop 1, d⟩ := by
    refine (C52_step_encoded (j := 1) hw hA rfl rfl hI).2 ?_
    have e : codeAt 0x10000000 (fun _ => 0xcc) [.label] C61_loop 1 = placeW 0x10000000 (fun _ => 0xcc) (simple [.label] C61_loop) 3
        + dist (labelAddr (reach 0x10000000 (fun _ => 0xcc) (simple [.label] C61_loop))) (Spec.place 0x10000000 (fun _ => 0xcc) (simple [.label] C61_loop) 3) 0 := by
      decide +kernel
    rw [e]
    exact .jmpRel
  have hT : Through (AtStatement 0x10000000 (fun _ => 0xcc) [.label] C61_loop) E k
      ⟨codeAt 0x10000000 (fun _ => 0xcc) [.label] C61_loop 1, d⟩ ⟨codeAt 0x10000000 (fun _ => 0xcc) [.label] C61_loop 1, d⟩ := by
    induction k with
    | zero => exact .zero hs
    | succ k ih => exact .succ hs hstep ih
  obtain ⟨m, h, -⟩ := C61_written hw hA (by decide) hT (n := 2) rfl
  exact ⟨hT, m, h⟩

end Monoasm
