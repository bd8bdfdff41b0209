import Verif.Proofs.Machine
import Verif.Proofs.History
import Verif.Spec.Grammar
/-
  C68: machine arithmetic. The library computes positions and addresses in `usize` and `i64`. No such
  computation overflows, so that debug builds (which check) and release builds (which wrap around) do
  the same, and the natural numbers of the model are the numbers of the machine.

  `Model/Machine.lean` is the memory manager with 64-bit arithmetic; `chk` says whether overflow checks
  are compiled in. `h` is any history (panics caught) whose numbers are 64-bit numbers (`Numbers`).

  The property is false for the negation of displacements (`-(e as i32)`, `Disp::neg`), and for patch
  points in the upper half of the address space.
-/

namespace Monoasm
open Spec

variable {base : Nat} {mem : Nat → Byte} {h : List Op} {op : Op} {chk : Bool}

/-- **The machine is in the state of the model**, with and without overflow checks. -/
theorem C68_state (ha : Alloc base) (hb : base + 3 * PAGE_SIZE < 2 ^ 63) (hn : ∀ op ∈ h, Numbers op) (chk : Bool) :
    Represents (Machine.reach chk base mem h) (reach base mem h) := by
  suffices H : ∀ (h : List Op) s t, (∀ op ∈ h, Numbers op) → Inv base s → Represents t s →
      Represents (h.foldl (fun t op => (op.onMachine chk t).state) t) (runCaught h s) from
    H h _ _ hn (inv_new base mem) (represents_new ha mem)
  intro h
  induction h with
  | nil => intro s t _ _ hr; exact hr
  | cons op h ih =>
    intro s t hn hi hr
    obtain ⟨h1, h2⟩ := Mimics.op ha hb op (hn op (by simp)) chk s t hi hr
    exact ih _ _ (fun o ho => hn o (by simp [ho])) h2 h1.state

/-- **Every call has the outcome of the model**: it returns, or panics with a message of the source. -/
theorem C68_call (ha : Alloc base) (hb : base + 3 * PAGE_SIZE < 2 ^ 63) (hn : ∀ op ∈ h, Numbers op) (ho : Numbers op) (chk : Bool) :
    SameOutcome (fun _ _ => True) (op.run (reach base mem h)) (op.onMachine chk (Machine.reach chk base mem h)) :=
  (Mimics.op ha hb op ho chk _ _ (inv_reach base mem h) (C68_state ha hb hn chk)).1

/-- **No overflow**, and no pointer outside the address space. -/
theorem C68_never (ha : Alloc base) (hb : base + 3 * PAGE_SIZE < 2 ^ 63) (hn : ∀ op ∈ h, Numbers op) (ho : Numbers op) (chk : Bool)
    (t : Machine.JitMemory) :
    op.onMachine chk (Machine.reach chk base mem h) ≠ .fault .overflow t
    ∧ op.onMachine chk (Machine.reach chk base mem h) ≠ .fault .undefined t := by
  have := C68_call (mem := mem) ha hb hn ho chk
  constructor <;> intro e <;> obtain ⟨e', s, _, h⟩ := this.fault_iff.1 ⟨t, e⟩ <;> cases h

/-- **Debug and release builds do the same**: the memory, the selected page, the positions and the labels
    after the history are the same, and so is the outcome of the next call. -/
theorem C68_builds (ha : Alloc base) (hb : base + 3 * PAGE_SIZE < 2 ^ 63) (hn : ∀ op ∈ h, Numbers op) (ho : Numbers op) :
    (Machine.reach true base mem h).mem = (Machine.reach false base mem h).mem
    ∧ (Machine.reach true base mem h).page = (Machine.reach false base mem h).page
    ∧ (∀ p, p < 3 → natPage ((Machine.reach true base mem h).pages p) = natPage ((Machine.reach false base mem h).pages p))
    ∧ (Machine.reach true base mem h).labels.map natLabel = (Machine.reach false base mem h).labels.map natLabel
    ∧ (∀ e, (∃ t, op.onMachine true (Machine.reach true base mem h) = .fault e t)
        ↔ ∃ t, op.onMachine false (Machine.reach false base mem h) = .fault e t) := by
  have h1 := C68_state (mem := mem) ha hb hn true
  have h2 := C68_state (mem := mem) ha hb hn false
  refine ⟨funext fun a => by rw [h1.mem, h2.mem], by rw [← h1.page, h2.page],
    fun p hp => by rw [← h1.pages p hp, h2.pages p hp], by rw [← h1.labels, h2.labels], fun e => ?_⟩
  have c1 := C68_call (mem := mem) ha hb hn ho true
  have c2 := C68_call (mem := mem) ha hb hn ho false
  rw [c1.fault_iff, c2.fault_iff]

/-- The functions that return addresses, likewise; the results are addresses of the three pages. -/
theorem C68_addresses (ha : Alloc base) (hb : base + 3 * PAGE_SIZE < 2 ^ 63) (hn : ∀ op ∈ h, Numbers op) (chk : Bool) (l : DestLabel) :
    let R := fun (a : Nat) (b : BitVec 64) => a = b.toNat ∧ base ≤ a ∧ a ≤ base + 3 * PAGE_SIZE
    SameOutcome R (JitMemory.get_label_address l (reach base mem h))
        (Machine.JitMemory.get_label_address l chk (Machine.reach chk base mem h))
    ∧ SameOutcome R (JitMemory.get_label_u64 l (reach base mem h))
        (Machine.JitMemory.get_label_u64 l chk (Machine.reach chk base mem h))
    ∧ SameOutcome R (JitMemory.get_current_address (reach base mem h))
        (Machine.JitMemory.get_current_address chk (Machine.reach chk base mem h)) :=
  have hi := inv_reach base mem h
  have hr := C68_state (mem := mem) ha hb hn chk
  ⟨(Mimics.get_label_address ha l chk _ _ hi hr).1, (Mimics.get_label_u64 ha l chk _ _ hi hr).1,
    (Mimics.get_current_address ha chk _ _ hi hr).1⟩

/-- `include`, for every pointer. -/
theorem C68_include (ha : Alloc base) (hb : base + 3 * PAGE_SIZE < 2 ^ 63) (hn : ∀ op ∈ h, Numbers op) (chk : Bool) (ptr : BitVec 64) :
    ∃ t, Machine.JitMemory.includes ptr chk (Machine.reach chk base mem h) = .ok (JitMemory.includes (reach base mem h) ptr.toNat) t := by
  obtain ⟨h1, _⟩ := Mimics.includes ha ptr chk _ _ (inv_reach base mem h) (C68_state (mem := mem) ha hb hn chk)
  revert h1
  generalize Machine.JitMemory.includes ptr chk (Machine.reach chk base mem h) = y
  intro h1
  cases h1 with | ok e _ => exact ⟨_, by rw [e]⟩

/-- The offset of a relocation, `4 + imm.offset()` on `u8`. -/
theorem C68_offset (imm : Imm) : (4 + imm.offset : BitVec 8).toNat = 4 + imm.offset.toNat := by
  cases imm <;> rfl

/-- **Negation of a displacement**: with overflow checks, it fails exactly for the least number. -/
theorem C68_negate_partial (x : BitVec 32) :
    (Machine.neg32 true x = Machine.neg32 false x ↔ x ≠ 0x80000000)
    ∧ (x ≠ 0x80000000 → Machine.neg32 true x = some (-x) ∧ (-x).toInt = -x.toInt) := by
  have e : BitVec.intMin 32 = 0x80000000 := rfl
  have hn : x ≠ 0x80000000 → (-x).toInt = -x.toInt := fun h => by
    rw [BitVec.toInt_neg_of_ne_intMin (by rw [e]; exact h)]
  by_cases h : x = 0x80000000
  · subst h; decide
  · simp [Machine.neg32, e, hn h]

/-- **Violated**: `lea rax, [rax - (e)]` with `e = -2^31`. The address `rax + 2^31` cannot be encoded. A debug
    build panics; a release build assembles `lea rax, [rax - 2^31]`. Likewise, a macro built without
    overflow checks reads `[rax - -2147483648]` as `[rax - 2^31]`. -/
theorem C68_negate_violated :
    Machine.neg32 true ((-0x80000000 : BitVec 64).setWidth 32) = none
    ∧ MDisp.toDisp (.expr true (-0x80000000)) = .d32 (-0x80000000)
    ∧ Machine.neg32 true 0x80000000 = none
    ∧ indAddrBody exExpr [.ident "rax", .punct '-', .punct '-', .int 2147483648 ""]
      = .ok (⟨.reg 0, .none, .imm 0x80000000⟩, []) := by
  refine ⟨by decide, by decide, by decide, by rfl⟩

/-- **Violated**: a patch point in the upper half of the address space (outside of the pages). A debug build
    panics; a release build stores four bytes after it. -/
theorem C68_patch_violated :
    let op := Op.apply_jmp_patch_address 0x8000000000000000 0
    let t := fun chk => op.onMachine chk (Machine.reach chk 0x10000000 (fun _ => 0xe9) [.new .label, .bind_label 0])
    (∃ t', t true = .fault .overflow t')
    ∧ ∃ t', t false = .ok () t' ∧ (List.range 5).map (fun i => t'.mem (0x8000000000000000 + BitVec.ofNat 64 i))
        = [0xe9, 0xfb, 0xff, 0xff, 0x0f] := by
  refine ⟨⟨_, rfl⟩, _, rfl, by decide +kernel⟩

/-- A jump over the pages, a constant, a patch and a query, in the machine. -/
def C68_history : List Op :=
  [.new .label, .new .label, .bind_label 0, .inst (.Jmp (.rel 1)), .new (.const_i64 77), .cur .align16, .select_page 1,
    .bind_label 1, .inst .Ret, .finalize, .apply_jmp_patch 0 2, .cur (.poke 0x123456789 0)]

example : Alloc 0x10000000 ∧ 0x10000000 + 3 * PAGE_SIZE < 2 ^ 63 ∧ (∀ op ∈ C68_history, Numbers op)
    ∧ (List.range 5).map (fun i => (Machine.reach true 0x10000000 (fun _ => 0xcc) C68_history).mem (0x10000000 + BitVec.ofNat 64 i))
      = [0xe9, 0x0b, 0x00, 0x00, 0x00] := by
  refine ⟨⟨⟨1, rfl⟩, by decide, by decide⟩, by decide, ?_, by decide +kernel⟩
  intro op ho
  simp only [C68_history, List.mem_cons, List.not_mem_nil, or_false] at ho
  rcases ho with h | h | h | h | h | h | h | h | h | h | h | h <;> subst h <;> simp [Numbers]

end Monoasm
