import Verif.Proofs.Listing
/-
  C36: linear disassembly.

  `C36_partial` is restricted to statements that are encoded as written (`Ordinary`): C25 and C33 show
  that `roundpd` with a label operand and `cvttsd2siq` are encoded as other instructions. `C36_encoded`
  is not restricted: it says of all statements what they are encoded as.
-/

namespace Monoasm
open Spec

/-- The code of any sequence of statements, once linked and followed by any bytes `tail`,
    disassembles to exactly that sequence, and the disassembly stops exactly before `tail`. -/
theorem C36_partial {is : List (Inst Val Nat)} {s s' la mem} (hr : RunsAll is s s') (ho : ∀ i ∈ is, Ordinary i)
    (hl : Linked s s' la mem) (hn : ∀ x, here s ≤ x → x ≤ here s' → Near la x) (tail : List Byte) :
    Listing meaning la (here s) (bytes mem (here s) (here s' - here s) ++ tail) is tail :=
  listing hr (fun i hi => (ho i hi).sort) (fun i hi rel => ordinary_encoded (ho i hi) rel) hl hn tail

/-- All statements that denote something, including those two, when they are read as `encoded` says. -/
theorem C36_encoded {is : List (Inst Val Nat)} {s s' la mem} (hr : RunsAll is s s') (ho : ∀ i ∈ is, Meaningful i)
    (hl : Linked s s' la mem) (hn : ∀ x, here s ≤ x → x ≤ here s' → Near la x) (tail : List Byte) :
    Listing encoded la (here s) (bytes mem (here s) (here s' - here s) ++ tail) is tail :=
  listing hr ho (fun _ _ _ => rfl) hl hn tail

/-- The restriction of `C36_partial` is exact: a statement is encoded as written if and only if it is
    not one of the two kinds. -/
theorem C36_as_written {i : Inst Val Nat} (h : Meaningful i) : (∀ rel, meaning rel i = encoded rel i) ↔ Ordinary i :=
  ⟨as_written_ordinary h, ordinary_encoded⟩

/-- Sequences of accepted statements are assembled if their immediates fit, the labels exist and
    there is room. -/
theorem C36_assembles {is : List (Inst Val Nat)} {s} (ho : ∀ i ∈ is, Meaningful i) (ha : ∀ i ∈ is, Accepted i)
    (hi : ∀ i ∈ is, ImmOk i) (hk : ∀ i ∈ is, Known s i)
    (hr : cursor s s.page + 12 * is.length ≤ PAGE_SIZE) : ∃ s', RunsAll is s s' :=
  meaningful_runsAll ho ha hi hk hr

/-- The slots of a sequence can be filled. -/
theorem C36_linkable {is : List (Inst Val Nat)} {s s'} (h : RunsAll is s s') (la) : ∃ mem, Linked s s' la mem :=
  linkableAll h la

/-- A loop: `l: subq rdi, 1; movq rax, [rip + l]; jne l; ret; dq 7`. -/
def c36Program : List (Inst Val Nat) :=
  [.Label 0, .Sub .QWORD (.reg (.reg 7)) (.imm 1), .Movq (.reg (.reg 0)) (.ind ⟨.reg 16, .none, .label 0⟩),
   .Jcc .Ne 0, .Ret, .I64 7]

theorem c36Ordinary : ∀ i ∈ c36Program, Ordinary i := by
  intro i hi
  simp only [c36Program, List.mem_cons, List.not_mem_nil, or_false] at hi
  rcases hi with rfl | rfl | rfl | rfl | rfl | rfl
  · exact ⟨.inr (.inl ⟨_, rfl⟩), by simp, by simp⟩
  · exact ⟨.inl ⟨fun _ => 0, _, rfl⟩, by simp, by simp⟩
  · exact ⟨.inl ⟨fun _ => 0, _, rfl⟩, by simp, by simp⟩
  · exact ⟨.inl ⟨fun _ => 0, _, rfl⟩, by simp, by simp⟩
  · exact ⟨.inl ⟨fun _ => 0, _, rfl⟩, by simp, by simp⟩
  · exact ⟨.inr (.inr (.inl ⟨_, rfl⟩)), by simp, by simp⟩

example : ∃ s' mem, RunsAll c36Program ex1 s'
    ∧ Linked ex1 s' (fun _ => 0x10000000) mem
    ∧ ∀ tail, Listing meaning (fun _ => 0x10000000) (here ex1) (bytes mem (here ex1) (here s' - here ex1) ++ tail)
        c36Program tail := by
  obtain ⟨s', h⟩ := C36_assembles (s := ex1) (fun i hi => (c36Ordinary i hi).sort)
    (by
      intro i hi
      simp only [c36Program, List.mem_cons, List.not_mem_nil, or_false] at hi
      rcases hi with rfl | rfl | rfl | rfl | rfl | rfl <;> exact ⟨_, rfl⟩)
    (by
      intro i hi n v
      simp only [c36Program, List.mem_cons, List.not_mem_nil, or_false] at hi
      rcases hi with rfl | rfl | rfl | rfl | rfl | rfl <;> intro h <;> simp [Spec.imm, rmiImm, immWidth] at h
      obtain ⟨rfl, rfl⟩ := h; decide)
    (by
      intro i hi l hm
      have : l = 0 := by
        simp only [c36Program, List.mem_cons, List.not_mem_nil, or_false] at hi
        rcases hi with rfl | rfl | rfl | rfl | rfl | rfl <;>
          simpa [Inst.mentions, Inst.labels, RmOperand.labels, RmiOperand.labels, MovOperand.labels, IndAddr.labels, MDisp.labels] using hm
      subst this; exact Nat.zero_lt_one)
    (by have := room_ex1; simp [Room, cursor, ex1, ex0, JitMemory.label, Res.state, JitMemory.new, MemPage.new, PAGE_SIZE, c36Program] at this ⊢)
  obtain ⟨mem, hl⟩ := C36_linkable h (fun _ => 0x10000000)
  refine ⟨s', mem, h, hl, C36_partial h c36Ordinary hl fun x hx1 hx2 l => ?_⟩
  have := runsAll_here h
  rw [here_ex1] at *
  simp only [c36Program, List.length_cons, List.length_nil] at this
  constructor <;> omega

end Monoasm
