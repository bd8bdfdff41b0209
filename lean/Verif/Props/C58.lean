import Verif.Proofs.Protect
import Verif.Props.C02
import Verif.Props.C15
import Verif.Props.C17
/-
  C58: memory protection.
-/

namespace Monoasm
open Spec X86

variable {M : Reading} {base : Nat} {mem : Nat → Monoasm.Byte} {P : Nat → Protection} {H h : List Op} {n n' j k a : Nat} {i : Inst Val Nat}
  {E : Effect} {d d' : Data}

/-- What `Layout::from_size_align` accepts: an alignment that is a power of two, and a size such that a
    multiple of the alignment is at least the size and at most `isize::MAX`. -/
theorem C58_layout_iff (size align : Nat) : layoutOk size align = true ↔
    align.isPowerOfTwo ∧ ∃ c, size ≤ c * align ∧ c * align < 2 ^ 63 := by
  have e : layoutOk size align = true ↔ (align ≠ 0 ∧ (align &&& (align - 1)) = 0) ∧ (size + (align - 1)) / align * align ≤ 2 ^ 63 - 1 := by
    simp only [layoutOk, Bool.and_eq_true, bne_iff_ne, beq_iff_eq, decide_eq_true_eq, ne_eq]
  rw [e, Nat.ne_zero_and_sub_one_eq_zero_iff_isPowerOfTwo]
  refine and_congr_right fun hp => ?_
  have h0 := Nat.pos_of_isPowerOfTwo hp
  constructor
  · intro h
    refine ⟨(size + (align - 1)) / align, ?_, by omega⟩
    have := Nat.lt_div_mul_add (a := size + (align - 1)) h0
    omega
  · rintro ⟨c, h1, h2⟩
    have h3 : (size + (align - 1)) / align ≤ c := by
      rw [← Nat.lt_succ_iff, Nat.div_lt_iff_lt_mul h0, Nat.succ_mul]
      omega
    have := Nat.mul_le_mul_right align h3
    omega

/-- `Layout::from_size_align` does not fail. -/
theorem C58_layout : layoutOk (PAGE_SIZE * 3) PAGE_SIZE = true := by decide +kernel

/-- Protection after `JitMemory::new`: the code pages are readable, writable and executable, the data page
    is readable and writable, and nothing else is changed. -/
theorem C58_pages (P : Nat → Protection) :
    (∀ p, p < 2 → inPage base p a → JitMemory.newProtection base P a = .READ_WRITE_EXECUTE)
    ∧ (inPage base 2 a → JitMemory.newProtection base P a = .READ_WRITE)
    ∧ ((∀ p, p < 3 → ¬ inPage base p a) → JitMemory.newProtection base P a = P a) :=
  ⟨fun _ hp ha => prot_code hp ha, prot_data, prot_other⟩

/-- Calls write to writable memory only. (Patches: see `C58_patch`.) -/
theorem C58_writes (P : Nat → Protection) (op : Op) (hp : ¬ op.isPatch) (h : (op.run (reach base mem h)).state.mem a ≠ (reach base mem h).mem a) :
    (JitMemory.newProtection base P a).write = true := by
  by_cases ha : ∀ p, p < 3 → ¬ inPage base p a
  · exact absurd (C02_call base mem _ op hp a ha) h
  · obtain ⟨p, hp⟩ := Classical.not_forall.1 ha
    obtain ⟨hp, ha⟩ := Classical.not_imp.1 hp
    have ha := Classical.not_not.1 ha
    rcases page_cases hp with rfl | rfl | rfl
    · rw [prot_code (by decide) ha]; rfl
    · rw [prot_code (by decide) ha]; rfl
    · rw [prot_data ha]; rfl

/-- A patch of a jump that is inside of the pages writes to writable memory only. -/
theorem C58_patch (P : Nat → Protection) {s : JitMemory} {x : Nat} {l : DestLabel} (h1 : base ≤ x) (h2 : x + 5 ≤ base + 3 * PAGE_SIZE)
    (h : (JitMemory.apply_jmp_patch_address x l s).state.mem a ≠ s.mem a) : (JitMemory.newProtection base P a).write = true := by
  obtain ⟨m, e, hm⟩ := C15_address_four (pa := x) (d := l) s
  rw [e] at h
  have : x + 1 ≤ a ∧ a < x + 5 := Classical.not_not.1 fun h3 => h (hm a h3)
  rw [JitMemory.newProtection, protect]
  split
  · rfl
  · rw [protect, if_pos (by rw [PAGE_SIZE_eq] at *; omega)]; rfl

/-- The code of each statement is in executable memory ... -/
theorem C58_code (P : Nat → Protection) (hr : NoRaw H) (hn : H[n]? = some (.inst i))
    (hs : ∃ s1, Runs i (reach base mem (H.take n)) s1) (h1 : Spec.place base mem H n ≤ a) (h2 : a < Spec.place base mem H (n + 1)) :
    (JitMemory.newProtection base P a).execute = true := by
  rw [prot_code (hinv_take (base := base) (mem := mem) hr n).inv.page (place_page hr hn hs h1 h2)]; rfl

/-- ... so a processor that executes code from executable memory only runs the program as in C49. -/
theorem C58_run (P : Nat → Protection) (hA : Alloc base) (hr : NoRaw H) (hf : KeepsLabels (JitMemory.new base mem) H)
    (h : SourceRun base mem H M E k n d n' d') :
    NxSteps (executable (JitMemory.newProtection base P)) E k ⟨placeW base mem H n, d⟩ ⟨placeW base mem H n', d'⟩ := by
  induction h with
  | done => exact .zero
  | @step n d n' d' n'' d'' j k h1 h2 h3 _ ih =>
    have hs := C49_step_partial hA hr hf h1 h2 h3
    refine nxSteps_append ?_ ih
    have one : ∀ {i}, H[n]? = some (.inst i) → j = 1 → (∃ I, instrAt base mem H M n i = some I) →
        NxSteps (executable (JitMemory.newProtection base P)) E j ⟨placeW base mem H n, d⟩ ⟨placeW base mem H n', d'⟩ := by
      rintro i hn rfl hI
      cases hs with
      | succ g1 g2 =>
        cases g2
        exact .succ (nx_of_step hA hr hf hn (h2 i hn rfl) hI (h3 rfl) g1) .zero
    cases h1 with
    | skip _ g => rw [placeW, placeW, g]; exact .zero
    | jmp g1 _ => exact one g1 rfl ⟨_, (h2 _ g1 rfl).read _⟩
    | taken g1 _ _ => exact one g1 rfl ⟨_, (h2 _ g1 rfl).read _⟩
    | notTaken g1 _ => exact one g1 rfl ⟨_, (h2 _ g1 rfl).read _⟩
    | call g1 _ => exact one g1 rfl ⟨_, (h2 _ g1 rfl).read _⟩
    | seq g1 g2 _ _ => exact one g1 rfl ⟨_, g2⟩
    | indirect g1 _ g2 _ _ => exact one g1 rfl ⟨_, g2⟩

/-- The data page cannot be executed. -/
theorem C58_data (P : Nat → Protection) (hA : Alloc base) (ha : inPage base 2 a) (s' : State) :
    ¬ NxStep (executable (JitMemory.newProtection base P)) E ⟨BitVec.ofNat 64 a, d⟩ s' := by
  intro h
  have hu := hA.user
  cases h with
  | mk _ h _ _ =>
    rw [executable, BitVec.toNat_ofNat, Nat.mod_eq_of_lt (by have := ha.2; rw [PAGE_SIZE_eq] at *; omega), prot_data ha] at h
    cases h

/-- Memory that was not accessible before. -/
example : JitMemory.newProtection 0x10000000 (fun _ => ⟨false, false, false⟩) 0x2fffffff = ⟨true, true, true⟩
    ∧ JitMemory.newProtection 0x10000000 (fun _ => ⟨false, false, false⟩) 0x30000000 = ⟨true, true, false⟩
    ∧ JitMemory.newProtection 0x10000000 (fun _ => ⟨false, false, false⟩) 0x40000000 = ⟨false, false, false⟩ := by decide +kernel

end Monoasm
