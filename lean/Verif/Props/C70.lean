import Verif.Proofs.Listing
import Verif.Proofs.Rename
import Verif.Proofs.Past
import Verif.Spec.Length
/-
  C70: length of code. A statement takes the same number of bytes wherever and whenever it is assembled, and
  whichever labels it names: at least one, except for labels, and at most 12 (x86 allows 15).
-/

namespace Monoasm
open Spec

theorem length_of_items {i its} (h : items i = .ok its) : HasLength i (lenOf its) := by
  intro s s' hr
  obtain ⟨its', h', r⟩ := runs_items hr
  rw [h] at h'
  cases h'
  refine ⟨r.page, fun p => ?_⟩
  simp only [cursor, r.pages]
  split <;> simp

/-- Every statement that is accepted has a length of at most 12 bytes, which does not depend on the labels. -/
theorem C70_length {i : Inst Val Nat} (h : Accepted i) : ∃ n, n ≤ 12 ∧ ∀ f, HasLength (i.map id f) n := by
  obtain ⟨its, hi⟩ := accepted_items.1 h
  refine ⟨lenOf its, items_len hi, fun f => ?_⟩
  have e := length_of_items (i := i.map id f) (its := ren f its) (by rw [items_rename, hi]; rfl)
  have hl : lenOf (ren f its) = lenOf its := by
    simp only [lenOf, ren, List.map_map]
    congr 2
    funext it
    cases it <;> rfl
  rwa [hl] at e

/-- Only labels take no room. -/
theorem C70_nonempty {i : Inst Val Nat} {s s'} (h : Runs i s s') :
    (∃ l, i = .Label l) ∨ cursor s s.page < cursor s' s.page := by
  obtain ⟨its, hi, r⟩ := runs_items h
  rcases items_pos hi r.noFail with hl | hl
  · exact .inl hl
  · right
    rw [((length_of_items hi) s s' h).2 s.page, if_pos rfl]
    omega

theorem C70_label (l : Nat) : HasLength (.Label l) 0 :=
  length_of_items (its := [.bind l]) rfl

/-- The bound is exact: `movq [rax + rcx * 4 + 0x12345678], 0x12345678` takes 12 bytes. -/
theorem C70_longest :
    ∃ s', Runs (.Movq (.ind ⟨.reg 0, .s1 2 (.reg 1), .imm 0x12345678⟩) (.imm 0x12345678 none)) ex0 s'
      ∧ cursor ex0 ex0.page + 12 = cursor s' ex0.page := by
  obtain ⟨s', h⟩ := Res.isOk_iff.1 (show (Op.run (.inst (.Movq (.ind ⟨.reg 0, .s1 2 (.reg 1), .imm 0x12345678⟩)
    (.imm 0x12345678 none))) ex0).isOk = true by decide +kernel)
  have e : s' = (Op.run (.inst (.Movq (.ind ⟨.reg 0, .s1 2 (.reg 1), .imm 0x12345678⟩)
    (.imm 0x12345678 none))) ex0).state := by rw [h]; rfl
  refine ⟨s', ⟨_, rfl, h⟩, ?_⟩
  rw [e]
  decide +kernel

/-- `jmp l` takes 5 bytes, `addq rax, 1` takes 4. -/
example : HasLength (.Jmp (.rel 3)) 5 ∧ HasLength (.Add .QWORD (.reg (.reg 0)) (.imm 1)) 4 :=
  ⟨length_of_items (its := [.i8 0xe9, .rel 3 4]) rfl, length_of_items (its := [.i8 0x48, .i8 0x83, .i8 0xc0, .i8 1]) rfl⟩

/-- The code of `n` statements takes at most `12 n` bytes, and statements that can be assembled one by one are
    assembled in that room. -/
theorem C70_program {is : List (Inst Val Nat)} {s} (ho : ∀ i ∈ is, Meaningful i) (ha : ∀ i ∈ is, Accepted i)
    (hi : ∀ i ∈ is, ImmOk i) (hk : ∀ i ∈ is, Known s i) (hr : cursor s s.page + 12 * is.length ≤ PAGE_SIZE) :
    (∃ s', RunsAll is s s') ∧ ∀ s', RunsAll is s s' → here s ≤ here s' ∧ here s' ≤ here s + 12 * is.length :=
  ⟨meaningful_runsAll ho ha hi hk hr, fun _ h => runsAll_here h⟩

/-- The program of C36 meets the hypotheses (see there for `Meaningful`, `Accepted` and `Known`). -/
example : ∀ i ∈ ([.Label 0, .Jcc .Ne 0, .Ret, .I64 7] : List (Inst Val Nat)), Meaningful i ∧ Accepted i ∧ ImmOk i ∧ Known ex1 i := by
  intro i hi
  simp only [List.mem_cons, List.not_mem_nil, or_false] at hi
  have hk : ex1.labels.length = 1 := rfl
  rcases hi with rfl | rfl | rfl | rfl
  · exact ⟨.inr (.inl ⟨_, rfl⟩), ⟨_, rfl⟩, by simp [ImmOk, imm], fun l hl => by simp [Inst.mentions, Inst.labels] at hl; omega⟩
  · exact ⟨.inl ⟨fun _ => 0, _, rfl⟩, ⟨_, rfl⟩, by simp [ImmOk, imm], fun l hl => by simp [Inst.mentions, Inst.labels] at hl; omega⟩
  · exact ⟨.inl ⟨fun _ => 0, _, rfl⟩, ⟨_, rfl⟩, by simp [ImmOk, imm], fun l hl => by simp [Inst.mentions, Inst.labels] at hl⟩
  · exact ⟨.inr (.inr (.inl ⟨_, rfl⟩)), ⟨_, rfl⟩, by simp [ImmOk, imm], fun l hl => by simp [Inst.mentions, Inst.labels] at hl⟩

end Monoasm
