import Verif.Proofs.Simple
import Verif.Proofs.Objects
import Verif.Spec.Effects
/-
  C52: programs that pass a check of their text are assembled, linked and executed as written.

  Statements that are not encoded as written (C25, C33: `roundpd` with a label operand and
  `cvttsd2siq`) are executed as they are encoded; `asWrittenB` is the check for their absence.
-/

namespace Monoasm
open Spec X86

variable {base : Nat} {mem : Nat → Monoasm.Byte} {pre : List NewCall} {is : List (Inst Val Nat)}

/-- The check. -/
theorem C52_check (h : wellFormedB pre is = true) : WellFormed pre is := by
  simp only [wellFormedB, Bool.and_eq_true, List.all_eq_true, decide_eq_true_eq, beq_iff_eq] at h
  obtain ⟨⟨⟨⟨⟨h1, h2⟩, h3⟩, h4⟩, h5⟩, h6⟩ := h
  have hd : ∀ i ∈ is, ∀ l, i.mentions l → l < pre.length ∧ ((∃ c, pre[l]? = some c ∧ c ≠ .label) ∨ .Label l ∈ is) := by
    intro i hi l hl
    have := (h1 i hi).2 l hl
    simp only [definedB] at this
    split at this
    · cases this
    · rename_i e
      exact ⟨(List.getElem?_eq_some_iff.1 e).1, .inr (mem_placedLabels.1 (List.contains_iff_mem.1 this))⟩
    · rename_i c hc e
      exact ⟨(List.getElem?_eq_some_iff.1 e).1, .inl ⟨c, e, hc⟩⟩
  refine ⟨fun i hi => ?_, fun i hi n v e => ?_, fun i hi => meaningfulB_sound (h1 i hi).1.2, fun i hi l hl => (hd i hi l hl).1,
    fun i hi l hl => (hd i hi l hl).2, fun l hl => h2 l (mem_placedLabels.2 hl), placed_once h3, fun x hx => ?_, h5, h6⟩
  · have := (h1 i hi).1.1.1
    simp only [acceptedB] at this
    split at this
    · exact ⟨_, by assumption⟩
    · cases this
  · have := (h1 i hi).1.1.2
    simp only [immOkB, e, decide_eq_true_eq] at this
    exact this
  · have := h4 _ hx
    simpa [pointerB] using this

/-- A well-formed program is assembled and linked without a panic, wherever the memory for the code
    is allocated. -/
theorem C52 (hw : WellFormed pre is) (base mem) : ∃ s, runOps (simple pre is) (JitMemory.new base mem) = .ok () s :=
  simple_runs hw base mem

/-- At the code of any of its statements, as long as that has not been overwritten, the processor
    executes exactly the instruction that the statement denotes if it is encoded as written, with
    labels at the addresses that they have in the end; and the next instruction is that of the next
    statement. -/
theorem C52_step (hw : WellFormed pre is) (hA : Alloc base) {j : Nat} {i I d r d'} {E : Effect} (hj : is[j]? = some i)
    (hs : asWrittenB i = true) (hI : instrAt base mem (simple pre is) meaning (pre.length + j) i = some I)
    (hd : Intact base mem (simple pre is) (pre.length + j) d) :
    X86.Step E ⟨placeW base mem (simple pre is) (pre.length + j), d⟩ ⟨r, d'⟩
      ↔ Exec E (placeW base mem (simple pre is) (pre.length + j + 1)) I d r d' := by
  obtain ⟨s, h⟩ := simple_runs hw base mem
  have hn := simple_label_at (pre := pre) hj
  have ho := asWrittenB_sound (hw.meaningful i (List.mem_of_getElem? hj)) hs
  refine step_at hA (noRaw_simple pre is) (keepsLabels_runOps h) hn (simple_ready hw hA mem hn) ?_ hd
  rw [← hI]
  exact (ordinary_encoded ho _).symm

/-- The same for all statements and what they are encoded as. -/
theorem C52_step_encoded (hw : WellFormed pre is) (hA : Alloc base) {j : Nat} {i I d r d'} {E : Effect} (hj : is[j]? = some i)
    (hI : instrAt base mem (simple pre is) encoded (pre.length + j) i = some I) (hd : Intact base mem (simple pre is) (pre.length + j) d) :
    X86.Step E ⟨placeW base mem (simple pre is) (pre.length + j), d⟩ ⟨r, d'⟩
      ↔ Exec E (placeW base mem (simple pre is) (pre.length + j + 1)) I d r d' := by
  obtain ⟨s, hs⟩ := simple_runs hw base mem
  have hn := simple_label_at (pre := pre) hj
  exact step_at hA (noRaw_simple pre is) (keepsLabels_runOps hs) hn (simple_ready hw hA mem hn) hI hd

/-- All its labels have an address in the end; that of a label statement is the address of the code
    that follows. -/
theorem C52_label (hw : WellFormed pre is) (hA : Alloc base) {j l : Nat} (hj : is[j]? = some (.Label l)) :
    HasAddress (reach base mem (simple pre is)) l (Spec.place base mem (simple pre is) (pre.length + j))
    ∧ Spec.place base mem (simple pre is) (pre.length + j + 1) = Spec.place base mem (simple pre is) (pre.length + j) := by
  obtain ⟨s, hs⟩ := simple_runs hw base mem
  refine ⟨binds_address hA (noRaw_simple pre is) (keepsLabels_runOps hs) (simple_once hw base mem l) (simple_binds hw base mem hj), ?_⟩
  obtain ⟨s1, s2, h⟩ := laid hw base mem
  obtain ⟨t, h1, e, t', ht⟩ := h.at hj
  have e' := runs_reach (base := base) (mem := mem) (simple_label_at (pre := pre) hj) (by rw [e]; exact ht)
  rw [Spec.place, Spec.place, e, e']
  obtain ⟨its, hits, hr⟩ := runs_items ht
  cases hits
  rw [hr.here]; rfl

/-- Constants are behind the code (on page 0), data objects on page 2, with the right alignment and
    contents. -/
theorem C52_const (hw : WellFormed pre is) (hA : Alloc base) {l : Nat} {c : NewCall} {d : DataType} (hl : pre[l]? = some c)
    (hc : c.const = some d) (hx : ∀ x, d ≠ .absAddress x) : Holds base (reach base mem (simple pre is)) l 0 d.align d.value := by
  obtain ⟨s2, h1, h2, h3, -⟩ := simple_last hw base mem
  exact holds_of_waits hA h1 h2 (.inl (h3 l c d hl hc)) hx

theorem C52_datum (hw : WellFormed pre is) (hA : Alloc base) {l : Nat} {c : NewCall} {d : DataType} (hl : pre[l]? = some c)
    (hc : c.datum = some d) : Holds base (reach base mem (simple pre is)) l 2 d.align d.value := by
  obtain ⟨s2, h1, h2, -, h3⟩ := simple_last hw base mem
  refine holds_of_waits hA h1 h2 (.inr ⟨rfl, 0, h3 l c d hl hc⟩) fun x e => ?_
  subst e
  exact datum_abs hc

/-- A program with a loop, a constant, a table of addresses and a data object. -/
def C52_program : List NewCall × List (Inst Val Nat) :=
  ([.label, .const_i64 7, .abs_address 0, .data_i64 9],
   [.Label 0, .Sub .QWORD (.reg (.reg 7)) (.imm 1), .Movq (.reg (.reg 0)) (.ind ⟨.reg 16, .none, .label 1⟩),
    .Jcc .Ne 0, .Movq (.ind ⟨.reg 16, .none, .label 3⟩) (.reg (.reg 0)), .Jmp (.ind ⟨.reg 16, .none, .label 2⟩)])

theorem C52_program_ok : WellFormed C52_program.1 C52_program.2 := C52_check (by decide +kernel)

end Monoasm
