import Verif.Proofs.Correct
/-
  C25: RIP-relative operands.

  `meaning (dist la e)` gives a memory operand `[rip + l]` the displacement `dist la e l`, where `e`
  is the address after the instruction; `C25_target` says that the processor then addresses `la l`.
  `Faithful` (see Spec/Link.lean) says that the code decodes to exactly this.

  The property fails for `roundpd` with a label operand: the byte after the displacement is not
  counted, and the operand is read one byte too far.
-/

namespace Monoasm
open Spec

/-- Next instruction address plus encoded displacement is the address of the label. -/
theorem C25_target (la : DestLabel → Nat) (e : Nat) (l : DestLabel) :
    BitVec.ofNat 64 e + dist la e l = BitVec.ofNat 64 (la l) := dist_spec la e l

/-- Every statement except `roundpd` with a label (and `cvttsd2siq`, next theorem), whatever its
    other operands and immediates: RIP-relative operands are encoded as such, with the displacement
    given or with the distance to the label. -/
theorem C25_rip_partial (i : Inst Val Nat) (h1 : ∀ a b m l, i = .Roundpd a b m → l ∉ b.labels)
    (h2 : ∀ a b, i ≠ .Cvttsd2siq a b) : Faithful i := by
  by_cases h : ∃ a b m, i = .Roundpd a b m
  · obtain ⟨a, b, m, rfl⟩ := h
    exact faithful_round (List.eq_nil_iff_forall_not_mem.2 fun l => h1 a b m l rfl)
  · exact faithful i (fun a b m e => h ⟨a, b, m, e⟩) h2

/-- The memory operand of `cvttsd2siq` is right (the size is not, see C33). -/
theorem C25_cvttsd2siq_partial {a b s s' la mem r o} (h : Runs (.Cvttsd2siq a b) s s')
    (hl : Linked s s' la mem) (hn : Near la (here s')) (ha : gpr a = some r)
    (hb : xm (dist la (here s')) b = some o) (rest) :
    X86.decode (bytes mem (here s) (here s' - here s) ++ rest) = some (.cvttf2si .sd .d (.gpr r) o, rest) :=
  decode_cvtt h hl hn ha hb rest

/-- What a RIP-relative operand denotes. -/
theorem C25_denotes (rel : Nat → BitVec 64) (l : Nat) (d : BitVec 32) :
    addr rel ⟨.reg 16, .none, .label l⟩ = some ⟨.rip, none, rel l⟩
    ∧ addr rel ⟨.reg 16, .none, .imm d⟩ = some ⟨.rip, none, d.signExtend 64⟩ := ⟨rfl, rfl⟩

/-- For every statement that was assembled, and any addresses of the labels, the slots can be
    filled: the hypotheses `Linked` of `Faithful` are satisfiable. -/
theorem C25_linkable {i s s'} (h : Runs i s s') (la) : ∃ mem, Linked s s' la mem := linkable h la

/-- `roundpd xmm0, [rip + l], 3`. -/
def roundRip : Inst Val Nat := .Roundpd (.no 0) (.ind ⟨.reg 16, .none, .label 0⟩) 3

/-- **The property is false for `roundpd`**: the code generated for `roundpd xmm0, [rip + l], 3`,
    linked as `finalize` does, reads the operand at the address of `l` plus one. -/
theorem C25_roundpd_wrong (la : DestLabel → Nat) (s s' mem) (h : Runs roundRip s s')
    (hl : Linked s s' la mem) (hn : Near la (here s' - 1)) (rest) :
    ∃ d, X86.decode (bytes mem (here s) (here s' - here s) ++ rest)
        = some (.round .pd (.xmm 0) (.mem ⟨.rip, none, d⟩) 3, rest)
      ∧ BitVec.ofNat 64 (here s') + d = BitVec.ofNat 64 (la 0) + 1 := by
  refine ⟨dist la (here s' - 1) 0, decode_round h hl hn rfl rest, ?_⟩
  have hpos : here s' = (here s' - 1) + 1 := by
    obtain ⟨its, hi, hr⟩ := runs_items h
    have := hr.here
    cases hi
    simp [Item.len] at this
    omega
  have := dist_spec la (here s' - 1) 0
  rw [← this]
  have e : BitVec.ofNat 64 (here s') = BitVec.ofNat 64 (here s' - 1) + 1 := by
    conv => lhs; rw [hpos]
    rw [← BitVec.ofNat_add_ofNat]; rfl
  rw [e, BitVec.add_assoc, BitVec.add_assoc, BitVec.add_comm 1 _]

/-- The wrong code is really produced. -/
theorem C25_roundpd_not_faithful : ¬ Faithful roundRip := by
  intro hf
  have ha : Accepted roundRip := ⟨_, rfl⟩
  obtain ⟨s', h⟩ := assembles (rel := fun _ => 0) (s := ex1) ha rfl (fun n v h => by cases h)
    (fun l h => by
      have : l = 0 := by simpa [roundRip, Inst.mentions, Inst.labels, XmOperand.labels, IndAddr.labels, MDisp.labels] using h
      subst this; exact Nat.zero_lt_one) room_ex1
  obtain ⟨mem, hl⟩ := linkable h (fun _ => here s')
  have h1 := hf ex1 s' _ mem _ h hl (fun l => by dsimp only; constructor <;> omega) rfl []
  obtain ⟨d, h2, h3⟩ := C25_roundpd_wrong (fun _ => here s') ex1 s' mem h hl
    (fun l => by dsimp only; constructor <;> omega) []
  rw [h2] at h1
  simp only [Option.some.injEq, Prod.mk.injEq, X86.Instr.round.injEq, X86.Opd.mem.injEq, X86.Addr.mk.injEq, true_and,
    and_true] at h1
  rw [h1.2.1] at h3
  have h4 := dist_spec (fun _ => here s') (here s') 0
  simp only [disp] at h3
  rw [h4] at h3
  revert h3
  generalize BitVec.ofNat 64 (here s') = x
  intro h3
  have : x - x = (x + 1) - x := congrArg (· - x) h3
  rw [BitVec.sub_self, BitVec.add_comm, BitVec.add_sub_cancel] at this
  exact absurd this (by decide)

/-- `movq rax, [rip + l]` (label created before) is assembled and can be linked. -/
example : ∃ s', Runs (.Movq (.reg (.reg 0)) (.ind ⟨.reg 16, .none, .label 0⟩)) ex1 s'
    ∧ ∃ mem, Linked ex1 s' (fun _ => 0x10000100) mem
      ∧ ∀ rest, X86.decode (bytes mem (here ex1) (here s' - here ex1) ++ rest)
          = some (.mov .q (.gpr 0) (.mem ⟨.rip, none, dist (fun _ => 0x10000100) (here s') 0⟩), rest) := by
  obtain ⟨s', h⟩ := assembles (rel := fun _ => 0) (s := ex1) (i := .Movq (.reg (.reg 0)) (.ind ⟨.reg 16, .none, .label 0⟩))
    ⟨_, rfl⟩ rfl (fun n v h => by cases h)
    (fun l h => by
      have : l = 0 := by simpa [Inst.mentions, Inst.labels, MovOperand.labels, IndAddr.labels, MDisp.labels] using h
      subst this; exact Nat.zero_lt_one) room_ex1
  obtain ⟨mem, hl⟩ := C25_linkable h (fun _ => 0x10000100)
  have hn : Near (fun _ => 0x10000100) (here s') := fun l => by
    have := runs_here h; rw [here_ex1] at this; dsimp only; constructor <;> omega
  exact ⟨s', h, mem, hl, fun rest => C25_rip_partial _ (by simp) (by simp) _ _ _ _ _ h hl hn rfl rest⟩

end Monoasm
