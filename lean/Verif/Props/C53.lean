import Verif.Proofs.Fibo
import Verif.Proofs.Tests
/-
  C53: the example of the documentation computes the Fibonacci numbers.

  `Spec.fibo.calls` are the macro calls of README.md:209-359 with their texts, `Spec.fibo.program` the
  statements assembled for them.
-/

namespace Monoasm
open Spec X86

/-- The statements that the macro assembles for the texts of the example. -/
theorem C53_text : fibo.assembleAll fibo.calls = some fibo.program := by decide +kernel

/-- The program is assembled and linked without a panic. -/
theorem C53_assembles (base : Nat) (mem : Nat → Monoasm.Byte) :
    ∃ s, runOps (simple fibo.labels fibo.program) (JitMemory.new base mem) = .ok () s :=
  C52 fibo_wf base mem

/-- A call of the function pointer that `get_label_addr` gives for the label `fibo`, with any
    argument `n` for which the stack is large enough (64 bytes for each level, with 8 more for the
    return address, and not overlapping the memory for the code), always returns to the caller; the
    result is the `n`th Fibonacci number (modulo 2^64), the registers that a function must preserve
    are preserved, and nothing but the used part of the stack is written to. -/
theorem C53 {base : Nat} {mem : Nat → Monoasm.Byte} (hA : Alloc base) {a : Nat}
    (ha : JitMemory.get_label_u64 0 (reach base mem (simple fibo.labels fibo.program))
      = .ok a (reach base mem (simple fibo.labels fibo.program)))
    {n : Nat} (hn : 64 * (n + 1) + 8 ≤ 2 ^ 64) {d : Data}
    (hL : Loaded base mem (simple fibo.labels fibo.program) d)
    (hO : Outside base (Below (d.gpr rsp) (64 * (n + 1))))
    (hd : d.gpr rdi = BitVec.ofNat 64 n) :
    Leads Described
      (fun s => Returned (Below (d.gpr rsp) (64 * (n + 1))) d s ∧ s.data.gpr rax = BitVec.ofNat 64 (fib n))
      ⟨BitVec.ofNat 64 a, d⟩ := by
  obtain ⟨⟨-, h2⟩, -⟩ := C52_label (mem := mem) fibo_wf hA (j := 0) (l := 0) rfl
  rw [h2] at ha
  injection ha with ha
  rw [← ha]
  exact fibo_call hA n d (d.gpr rsp) hL hO hn rfl hd

/-- The hypotheses are satisfiable: `fibo(90)` with the stack at the top of the user address space. -/
example : ∃ (a : Nat) (d : Data), Alloc 0x10000000
    ∧ JitMemory.get_label_u64 0 (reach 0x10000000 (fun _ => 0xcc) (simple fibo.labels fibo.program))
      = .ok a (reach 0x10000000 (fun _ => 0xcc) (simple fibo.labels fibo.program))
    ∧ 64 * (90 + 1) + 8 ≤ 2 ^ 64 ∧ Loaded 0x10000000 (fun _ => 0xcc) (simple fibo.labels fibo.program) d
    ∧ Outside 0x10000000 (Below (d.gpr rsp) (64 * (90 + 1))) ∧ d.gpr rdi = BitVec.ofNat 64 90 := by
  have hA : Alloc 0x10000000 := ⟨by rw [PAGE_SIZE_eq]; decide, by decide, by rw [PAGE_SIZE_eq]; decide⟩
  obtain ⟨⟨-, h⟩, -⟩ := C52_label (base := 0x10000000) (mem := fun _ => 0xcc) fibo_wf hA (j := 0) (l := 0) rfl
  refine ⟨_, ⟨fun r => if r = rsp then 0x7ffffffff000 else if r = rdi then 90 else 0, fun _ => 0, ⟨false, false, false, false, false⟩,
    fun x => (reach 0x10000000 (fun _ => 0xcc) (simple fibo.labels fibo.program)).mem x.toNat⟩, hA, h, by decide, loaded_example hA _ _ _ _, ?_, rfl⟩
  · intro a h1 h2 hb
    rw [PAGE_SIZE_eq] at h2
    simp only [Below, if_pos] at hb
    rw [show (0x7ffffffff000 : BitVec 64) - 1 = 0x7fffffffefff#64 from rfl, BitVec.toNat_sub, BitVec.toNat_ofNat, BitVec.toNat_ofNat] at hb
    omega

example : fib 90 = 2880067194370816120 := by decide +kernel

/-- The first short example: whatever the value of the variable `a`, the code loads ten times that
    (modulo 2^64), and changes nothing else. -/
theorem C53_value (vars : String → Spec.Val) (names : String → Nat) :
    ∃ is, assemble vars names valueText = some is ∧
    ∀ (base : Nat) (mem : Nat → Monoasm.Byte), Alloc base →
      (∃ s, runOps (simple [] is) (JitMemory.new base mem) = .ok () s) ∧
      ∀ d, Loaded base mem (simple [] is) d →
        Leads Described (fun s => s.rip = codeAt base mem [] is 1 ∧ s.data = d.setGpr rax (vars "a" * 10)) ⟨BitVec.ofNat 64 base, d⟩ := by
  have hs : statements valueText = some [.Movq (.reg (.reg 0)) (.imm (.mul (.var "a") (.value 10)) none)] := by decide +kernel
  have hw : WellFormed [] [.Movq (.reg (.reg 0)) (.imm (vars "a" * 10) none)] := C52_check (by
    have e1 : ∀ x, acceptedB (.Movq (.reg (.reg 0)) (.imm x none)) = true := fun _ => rfl
    have e2 : ∀ x, immOkB (.Movq (.reg (.reg 0)) (.imm x none)) = true := fun _ => rfl
    have e3 : ∀ x, meaningfulB (.Movq (.reg (.reg 0)) (.imm x none)) = true := fun _ => rfl
    have e4 : ∀ x, Inst.labels (.Movq (.reg (.reg 0)) (.imm x none) : Inst Spec.Val Nat) = [] := fun _ => rfl
    have e5 : ∀ x, placedLabels [(.Movq (.reg (.reg 0)) (.imm x none) : Inst Spec.Val Nat)] = [] := fun _ => rfl
    simp only [wellFormedB, e5, List.all_cons, e1, e2, e3, e4, List.all_nil, Bool.and_true, Bool.true_and,
      List.length_cons, List.length_nil, List.nodup_nil, decide_true, Bool.and_eq_true, decide_eq_true_eq]
    rw [PAGE_SIZE_eq]
    exact ⟨by decide, by decide⟩)
  refine ⟨_, by rw [assemble, hs]; rfl, fun base mem hA => ⟨C52 hw base mem, fun d hL => ?_⟩⟩
  have hR : Runnable base [] _ := ⟨hw, hA⟩
  exact lead_det (j := 0) (I := .mov .q (.gpr 0) (.imm (vars "a" * 10))) hR hL rfl rfl rfl (eff_mov_ri _ _ _ _) (.done ⟨rfl, rfl⟩)

/-- The second one: whatever is in rax, the code returns 10. -/
theorem C53_label :
    ∃ is, assemble (fun _ => 0) (fun _ => 0) labelText = some is ∧
    ∀ (base : Nat) (mem : Nat → Monoasm.Byte), Alloc base →
      (∃ s, runOps (simple [.label] is) (JitMemory.new base mem) = .ok () s) ∧
      ∀ d, Loaded base mem (simple [.label] is) d →
        Leads Described (fun s => Returned (fun _ => False) d s ∧ s.data.gpr rax = 10) ⟨BitVec.ofNat 64 base, d⟩ := by
  have hw : WellFormed [.label] [.Cmp .QWORD (.reg (.reg 0)) (.imm 10), .Jcc .Ne 0, .Label 0, .Movq (.reg (.reg 0)) (.imm 10 none), .Ret] :=
    C52_check (by decide +kernel)
  have ha : assemble (fun _ => 0) (fun _ => 0) labelText
      = some [.Cmp .QWORD (.reg (.reg 0)) (.imm 10), .Jcc .Ne 0, .Label 0, .Movq (.reg (.reg 0)) (.imm 10 none), .Ret] := by decide +kernel
  refine ⟨_, ha, fun base mem hA => ⟨C52 hw base mem, fun d hL => ?_⟩⟩
  have hR : Runnable base [.label] _ := ⟨hw, hA⟩
  have rest : ∀ f, Leads Described (fun s => Returned (fun _ => False) d s ∧ s.data.gpr rax = 10)
      ⟨codeAt base mem [.label] [.Cmp .QWORD (.reg (.reg 0)) (.imm 10), .Jcc .Ne 0, .Label 0, .Movq (.reg (.reg 0)) (.imm 10 none), .Ret] 2,
        d.setFlags f⟩ := by
    intro f
    refine labelled (j := 2) (l := 0) hR rfl ?_
    refine lead_det (j := 3) (I := .mov .q (.gpr 0) (.imm 10)) hR hL rfl rfl rfl (eff_mov_ri _ _ _ _) ?_
    refine leaf_ret (j := 4) (d0 := d) hR hL rfl ⟨rfl, rfl, rfl, rfl, rfl, rfl, rfl⟩ (by simp) (fun _ _ => rfl) fun s hr hs => ⟨hr, ?_⟩
    rw [hs]
    rfl
  refine lead_det (j := 0) (I := .alu .cmp .q (.gpr 0) (.imm 10)) (d1 := d.setFlags (subb (d.gpr 0) 10 false).2) hR hL rfl rfl rfl rfl ?_
  exact lead_jcc hR hL (j := 1) (m := 2) rfl rfl (fun _ => rest _) (fun _ => rest _)

end Monoasm
