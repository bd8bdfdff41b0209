import Verif.Proofs.Lifetime
/-
  C75: creation and lifetime of `JitMemory`s (`Spec/Lifetime.lean`).
-/

namespace Monoasm
open Spec

variable {w w' : System} {r : Option JitMemory} {v v' : World}

/-- `JitMemory::new` panics, or it returns a new `JitMemory` at an address that meets `Alloc` (in particular,
    not null), in a block of its own, with executable code pages and a data page that is not. In both cases
    all other blocks keep contents and protection. -/
theorem C75_new (hw : HeapSound w) (h : JitMemory.create w r w') :
    HeapSound w'
    ∧ (∀ b ∈ w.blocks, b ∈ w'.blocks ∧ ∀ a, Os.inBlock b a → w'.map a = w.map a ∧ w'.mem a = w.mem a)
    ∧ (r = none ∨ ∃ x, Alloc x ∧ r = some (JitMemory.new x w'.mem) ∧ w'.blocks = (x, PAGE_SIZE * 3) :: w.blocks
        ∧ (∀ b ∈ w.blocks, x + PAGE_SIZE * 3 ≤ b.1 ∨ b.1 + b.2 ≤ x)
        ∧ (∀ a, x ≤ a → a < x + 2 * PAGE_SIZE → w'.map a = some .READ_WRITE_EXECUTE)
        ∧ (∀ a, x + 2 * PAGE_SIZE ≤ a → a < x + 3 * PAGE_SIZE → w'.map a = some .READ_WRITE)) := by
  obtain ⟨h1, h2, h3⟩ := create_spec hw h
  refine ⟨h1, fun b hb => ⟨h2.1 b hb, h2.2 b hb⟩, ?_⟩
  cases r with
  | none => exact .inl rfl
  | some j =>
    obtain ⟨x, g1, g2, g3⟩ := h3 j rfl
    exact .inr ⟨x, g1, by rw [g2], g3⟩

/-- If the allocator has no block left, it panics ("Mprotect failed."): there is no check of the address
    that `alloc` returns, but memory at address 0 cannot be protected. -/
theorem C75_null (hw : HeapSound w) (hn : ∀ x w1, Os.alloc (PAGE_SIZE * 3) PAGE_SIZE w (some x) w1 → x = 0)
    (h : JitMemory.create w r w') : r = none := by
  obtain ⟨-, -, h3⟩ := create_spec hw h
  obtain ⟨x, w1, h1, h⟩ := create_iff.mp h
  cases hn x w1 h1
  rcases h with ⟨-, h⟩ | ⟨w2, -, ⟨-, h⟩ | ⟨-, h⟩⟩
  · exact h
  · exact h
  · obtain ⟨y, g1, g2, -⟩ := h3 _ h
    have : ((JitMemory.new 0 w'.mem).pages 0).contents = ((JitMemory.new y w'.mem).pages 0).contents := by rw [g2]
    have : 0 = y := this
    have := g1.pos
    omega

/-- If a block is free and the system permits code pages that can be written, it can succeed. -/
theorem C75_possible {x : Nat} (hA : Alloc x) (hf : ∀ b ∈ w.blocks, x + PAGE_SIZE * 3 ≤ b.1 ∨ b.1 + b.2 ≤ x) (h0 : w.map 0 = none) :
    JitMemory.create w (some (JitMemory.new x w.mem)) ⟨(x, PAGE_SIZE * 3) :: w.blocks,
      fun a => if x ≤ a ∧ a < x + 2 * PAGE_SIZE then some .READ_WRITE_EXECUTE
        else if x ≤ a ∧ a < x + 3 * PAGE_SIZE then some .READ_WRITE else w.map a, w.mem⟩ := by
  have := hA.pos
  have := hA.user
  refine create_iff.mpr ⟨x, ⟨(x, PAGE_SIZE * 3) :: w.blocks, fun a => if x ≤ a ∧ a < x + 3 * PAGE_SIZE then some .READ_WRITE else w.map a, w.mem⟩,
    .inr ⟨x, rfl, hA.pos, hA.aligned, by omega, rfl, hf, fun a ha => ?_, fun b hb a ha => ⟨?_, rfl⟩, ?_⟩, .inr ⟨⟨(x, PAGE_SIZE * 3) :: w.blocks,
      fun a => if x ≤ a ∧ a < x + 2 * PAGE_SIZE then some .READ_WRITE_EXECUTE
        else if x ≤ a ∧ a < x + 3 * PAGE_SIZE then some .READ_WRITE else w.map a, w.mem⟩,
      ⟨PAGE_SIZE * 2, true, rfl, Nat.le_refl _, fun _ => rfl, fun a ha => ⟨?_, ?_⟩, fun a ha => ?_, rfl, rfl⟩, .inr
        ⟨⟨PAGE_SIZE, true, rfl, Nat.le_refl _, fun _ => rfl, fun a ha => ⟨?_, ?_⟩, fun a ha => rfl, rfl, rfl⟩, rfl⟩⟩⟩
  · have := ha.1; have := ha.2; simp only at *; rw [if_pos (by omega)]
  · have := ha.1; have := ha.2; have := hf b hb; simp only at *; rw [if_neg (by omega)]
  · simp only; rw [if_neg (by omega)]; exact h0
  · have := ha.1; have := ha.2; simp only at *; rw [if_pos (by omega)]; exact fun h => by cases h
  · have := ha.1; have := ha.2; simp only at *; rw [if_pos (by omega)]
  · have : ¬ (x ≤ a ∧ a < x + PAGE_SIZE * 2) := ha
    simp only; rw [if_neg (by omega)]
  · have := ha.1; have := ha.2; simp only at *; rw [if_neg (by omega), if_pos (by omega)]; exact fun h => by cases h
  · have := ha.1; have := ha.2; simp only at *; rw [if_neg (by omega), if_pos (by omega)]

/-- **In a process** that creates, uses and drops `JitMemory`s, each one that was ever created, dropped or
    not, keeps its block to itself, with executable code pages; its records and the bytes of its code pages
    are those that the calls made on it produce alone. So code, and pointers into it, outlive the
    `JitMemory`. -/
theorem C75 (hv : HeapSound v.sys) (h0 : v.slots = []) (h : World.Run v v') : v'.Good := by
  induction h with
  | done => exact ⟨hv, by simp [h0], by rw [h0]; exact .nil⟩
  | step _ hs ih => exact world_step ih hs

/-- The blocks are never returned: if the user half of the address space that can be allocated ends at `n`,
    no more than `n / 768 MB` `JitMemory`s can be created, however many of them have been dropped. -/
theorem C75_bound (hv : HeapSound v.sys) (h0 : v.slots = []) (h : World.Run v v') {n : Nat} (hn : ∀ b ∈ v'.sys.blocks, b.1 + b.2 ≤ n) :
    v'.slots.length * (PAGE_SIZE * 3) ≤ n := by
  have hg := C75 hv h0 h
  have hP : 0 < PAGE_SIZE := by rw [PAGE_SIZE_eq]; decide
  have := apart_length (k := PAGE_SIZE * 3) (n := n) (by omega) (l := v'.slots.map Slot.base)
    (List.pairwise_map.mpr (hg.apart.imp fun {s t} h => by simp only [Slot.Apart] at h; omega)) fun x hx => by
      obtain ⟨s, hs, rfl⟩ := List.mem_map.mp hx
      exact hn _ (hg.slots s hs).block
  rwa [List.length_map] at this

/-- A process without free memory. -/
example : ∃ w : System, HeapSound w ∧ (∀ x w1, Os.alloc (PAGE_SIZE * 3) PAGE_SIZE w (some x) w1 → x = 0)
    ∧ JitMemory.create w none w := by
  have hP : 0 < PAGE_SIZE := by rw [PAGE_SIZE_eq]; decide
  refine ⟨⟨[(1, 2 ^ 63)], fun _ => none, fun _ => 0⟩, ⟨rfl, List.pairwise_singleton _ _⟩, ?_, ?_⟩
  · rintro x w1 (⟨h, -⟩ | ⟨y, h, h1, -, h2, -, h3, -⟩)
    · cases h; rfl
    · have := h3 (1, 2 ^ 63) (.head _)
      simp only at this
      omega
  · refine create_iff.mpr ⟨0, _, .inl ⟨rfl, rfl⟩, .inl ⟨⟨0, false, rfl, Nat.zero_le _, (fun h => Bool.noConfusion h), fun a ha => ?_, fun _ _ => rfl, rfl, rfl⟩, rfl⟩⟩
    have := ha.1; have := ha.2; simp only at *; omega

/-- Two `JitMemory`s are created, one is used and dropped in between. -/
example : ∃ w : World, World.Run ⟨⟨[], fun _ => none, fun _ => 0xcc⟩, []⟩ w ∧ HeapSound ⟨[], fun _ => none, fun _ => 0xcc⟩
    ∧ w.slots.map Slot.base = [0x10000000, 0x40000000] ∧ w.slots.map Slot.dropped = [true, false]
    ∧ w.slots.map Slot.calls = [[.new .label], []] := by
  have hs : HeapSound ⟨[], fun _ => none, fun _ => 0xcc⟩ := ⟨rfl, .nil⟩
  refine ⟨_, .step (.step (.step (.step .done (.create (C75_possible (x := 0x10000000) ?_ (fun _ h => by cases h) rfl)))
    (.call (k := 0) (.new .label) rfl rfl fun h => h.elim)) (.drop (k := 0) rfl)) (.create (C75_possible (x := 0x40000000) ?_ (fun b hb => ?_) ?_)),
    hs, rfl, rfl, rfl⟩
  · exact ⟨by rw [PAGE_SIZE_eq]; decide, by decide, by rw [PAGE_SIZE_eq]; decide⟩
  · exact ⟨by rw [PAGE_SIZE_eq]; decide, by decide, by rw [PAGE_SIZE_eq]; decide⟩
  · cases List.mem_singleton.mp hb
    rw [PAGE_SIZE_eq]; decide
  · simp

end Monoasm
