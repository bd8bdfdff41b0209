import Verif.Proofs.Outside
import Verif.Proofs.Move
import Verif.Spec.Source
/-
  C69: memory may change between the calls.

  The generated code runs between the calls and stores to memory, and several `JitMemory`s share the
  memory of a process. None of that changes what the calls do: they only ever write.
  Histories: any calls, panics caught, also panics of `finalize`.
-/

namespace Monoasm
open Spec

variable {base : Nat} {mem : Nat → Byte}

/-- A call treats each byte in one of two ways: it stores a value that does not depend on the memory, or
    it leaves the byte alone. Which of the two does not depend on the memory either. -/
theorem C69_call (op : Op) (s : JitMemory) (a : Nat) :
    (∃ v, ∀ m, (op.run { s with mem := m }).state.mem a = v) ∨ ∀ m, (op.run { s with mem := m }).state.mem a = m a := by
  obtain ⟨w, hw⟩ := Blind.op op s
  rcases e : w a with - | v
  · exact .inr fun m => by rw [hw, withMem_mem]; simp [overlay, e]
  · exact .inl ⟨v, fun m => by rw [hw, withMem_mem]; simp [overlay, e]⟩

/-- Whatever happens to memory between the calls: selected page, cursors, labels, pending objects, code
    blocks are those of the calls alone. -/
theorem C69_records (es : List Event) :
    SameRecords (runEvents es (JitMemory.new base mem)) (reach base mem (apiCalls es)) :=
  (alike_events (A := fun _ => False) (.refl _) (fun _ => False.elim) fun _ _ _ _ => False.elim).1

/-- A byte that nothing but the calls writes to has the value that the calls alone give it. -/
theorem C69_bytes {es : List Event} {A : Nat → Prop} (h : Untouched A es) (a : Nat) (ha : A a) :
    (runEvents es (JitMemory.new base mem)).mem a = (reach base mem (apiCalls es)).mem a :=
  (alike_events (.refl _) (fun _ _ => rfl) h).2 a ha

/-- The next call returns or panics, and with which message, as it does after the calls alone. -/
theorem C69_outcome (es : List Event) (op : Op) :
    (∃ s t, op.run (runEvents es (JitMemory.new base mem)) = .ok () s ∧ op.run (reach base mem (apiCalls es)) = .ok () t)
    ∨ ∃ e s t, op.run (runEvents es (JitMemory.new base mem)) = .panic e s ∧
      op.run (reach base mem (apiCalls es)) = .panic e t := by
  obtain ⟨w, -, h⟩ := call_alike (Blind.op op) (C69_records (base := base) (mem := mem) es)
  rw [h]
  cases op.run (runEvents es (JitMemory.new base mem)) with
  | ok a s => exact .inl ⟨_, _, rfl, rfl⟩
  | panic e s => exact .inr ⟨_, _, _, rfl, rfl⟩

/-- The addresses of the labels are those of the calls alone. -/
theorem C69_addresses (es : List Event) (l : DestLabel) (a : Nat) :
    HasAddress (runEvents es (JitMemory.new base mem)) l a ↔ HasAddress (reach base mem (apiCalls es)) l a :=
  ⟨hasAddress_alike (C69_records es), hasAddress_alike (C69_records es).symm⟩

/-- When the processor is started, the code of a statement is as assembled if only the calls have written
    to it; from here C49 and C65 say what the processor does. -/
theorem C69_intact {es : List Event} {n : Nat} {d : X86.Data}
    (hd : ∀ a, Spec.place base mem (apiCalls es) n ≤ a → a < Spec.place base mem (apiCalls es) (n + 1) →
      d.mem (BitVec.ofNat 64 a) = (runEvents es (JitMemory.new base mem)).mem a)
    (h : Untouched (fun a => Spec.place base mem (apiCalls es) n ≤ a ∧ a < Spec.place base mem (apiCalls es) (n + 1)) es) :
    Intact base mem (apiCalls es) n d :=
  fun a h1 h2 => (hd a h1 h2).trans (C69_bytes h a ⟨h1, h2⟩)

/-- Two `JitMemory`s with disjoint allocations, called in any order: each has the records and the bytes in
    its pages that its own calls alone produce, and no other byte changes. (Jump patches have to stay in
    the own pages; see C02.) -/
theorem C69_two {b1 b2 : Nat} (hd : b1 + 3 * PAGE_SIZE ≤ b2 ∨ b2 + 3 * PAGE_SIZE ≤ b1) (cs : List (Bool × Op))
    (p1 : PatchesHome b1 mem (callsOn false cs)) (p2 : PatchesHome b2 mem (callsOn true cs)) :
    let s := Pair.run cs (Pair.new b1 b2 mem)
    let t1 := reach b1 mem (callsOn false cs)
    let t2 := reach b2 mem (callsOn true cs)
    SameRecords s.first t1 ∧ (∀ a, Owns b1 a → s.first.mem a = t1.mem a)
    ∧ SameRecords s.second t2 ∧ (∀ a, Owns b2 a → s.second.mem a = t2.mem a)
    ∧ s.first.mem = s.second.mem ∧ ∀ a, ¬ Owns b1 a → ¬ Owns b2 a → s.first.mem a = mem a := by
  have h := pair_run (m := mem) (b1 := b1) (b2 := b2) (s := Pair.new b1 b2 mem) (pre1 := []) (pre2 := [])
    (fun a h1 h2 => by simp only [Owns] at h1 h2; omega) cs ⟨.refl _, fun _ _ => rfl⟩ ⟨.refl _, fun _ _ => rfl⟩ rfl p1 p2
  exact ⟨h.1.records, h.1.bytes, h.2.1.records, h.2.1.bytes, h.2.2.1, h.2.2.2⟩

/-- Two `JitMemory`s 16 GB apart: the calls of a function with a jump and a constant on each, interleaved,
    a patch on the second, and a call that panics on the first. -/
def C69_calls : List (Bool × Op) :=
  [(false, .new .label), (true, .new .label), (true, .inst (.Label 0)), (false, .inst (.Jmp (.rel 0))), (true, .inst (.Jmp (.rel 0))),
   (false, .new (.const_i64 7)), (false, .inst (.Label 0)), (true, .new .label), (true, .inst (.Label 1)), (true, .inst .Ret),
   (false, .inst .Ret), (false, .bind_label 9), (true, .finalize), (false, .finalize), (true, .apply_jmp_patch 0 1)]

private theorem home1 (m : Nat → Byte) : PatchesHome 0x100000000 m (callsOn false C69_calls) := by
  intro pre op post e hp
  have hm : op ∈ callsOn false C69_calls := by simp [e]
  have : ∀ op ∈ callsOn false C69_calls, ¬ op.isPatch := by simp [callsOn, C69_calls, Op.isPatch]
  exact absurd hp (this op hm)

private theorem home2 (m : Nat → Byte) : PatchesHome 0x500000000 m (callsOn true C69_calls) := by
  intro pre op post e hp a ha
  have e1 : callsOn true C69_calls = [.new .label, .inst (.Label 0), .inst (.Jmp (.rel 0)), .new .label, .inst (.Label 1), .inst .Ret,
      .finalize] ++ .apply_jmp_patch 0 1 :: [] := rfl
  have e2 : pre = [.new .label, .inst (.Label 0), .inst (.Jmp (.rel 0)), .new .label, .inst (.Label 1), .inst .Ret, .finalize]
      ∧ op = .apply_jmp_patch 0 1 := by
    rw [e1] at e
    match pre, e with
    | [], e | [_], e | [_, _], e | [_, _, _], e | [_, _, _, _], e | [_, _, _, _, _], e | [_, _, _, _, _, _], e => cases e; exact hp.elim
    | [_, _, _, _, _, _, _], e => cases e; exact ⟨rfl, rfl⟩
    | _ :: _ :: _ :: _ :: _ :: _ :: _ :: _ :: pre, e =>
      have := congrArg List.length e
      simp at this
  obtain ⟨rfl, rfl⟩ := e2
  obtain ⟨x, hx, h1, h2⟩ := ha
  have h4 : (reach 0x500000000 (fun _ => 0) [.new .label, .inst (.Label 0), .inst (.Jmp (.rel 0)), .new .label,
    .inst (.Label 1), .inst .Ret, .finalize]).locOf 0 = some (0, 0) := by decide +kernel
  have h3 := (hasAddress_alike (reach_records _ _ m _) (locOf_address (inv_reach _ _ _) (by decide) h4)).1
  rw [hx] at h3
  injection h3 with h3
  have hP := PAGE_SIZE_eq
  simp only [Owns]
  omega

example (m : Nat → Byte) :
    (∀ a, Owns 0x100000000 a → (Pair.run C69_calls (Pair.new 0x100000000 0x500000000 m)).first.mem a
      = (reach 0x100000000 m (callsOn false C69_calls)).mem a)
    ∧ ∀ a, Owns 0x500000000 a → (Pair.run C69_calls (Pair.new 0x100000000 0x500000000 m)).second.mem a
      = (reach 0x500000000 m (callsOn true C69_calls)).mem a :=
  have h := C69_two (by rw [PAGE_SIZE_eq]; omega) C69_calls (home1 m) (home2 m)
  ⟨h.2.1, h.2.2.2.1⟩

/-- Code that counts its calls in the data page: the call made later gets the address of its label from
    the records, and its code is what the calls assemble, although the count has changed. -/
example (m : Nat → Byte) :
    let es := [.call (.new .label), .call (.inst (.Label 0)), .call (.inst .Ret), .call .finalize,
      .outside fun m => upd m 0x120000000 (m 0x120000000 + 1), .call (.new .label), .call (.inst (.Label 1)), .call (.inst .Ret)]
    ∀ a, a ≠ 0x120000000 → (runEvents es (JitMemory.new 0x100000000 m)).mem a
      = (reach 0x100000000 m [.new .label, .inst (.Label 0), .inst .Ret, .finalize, .new .label, .inst (.Label 1), .inst .Ret]).mem a := by
  intro es a ha
  have e : apiCalls es = [.new .label, .inst (.Label 0), .inst .Ret, .finalize, .new .label, .inst (.Label 1), .inst .Ret] := rfl
  rw [← e]
  refine C69_bytes (A := fun a => a ≠ 0x120000000) (es := es) ?_ a ha
  intro f hf m a ha
  simp only [es, List.mem_cons, List.not_mem_nil, or_false, false_or, reduceCtorEq] at hf
  cases hf
  simp only [upd, if_neg ha]

end Monoasm
