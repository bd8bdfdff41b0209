import Verif.Proofs.Swap
/-
  C79: pages that are exchanged between `JitMemory`s.

  Safe Rust can exchange two pages (`std::mem::swap(&mut *a, &mut *b)`). The property (labels and relocations go
  on referring to the code they were made for, calls write to memory of the `JitMemory` only) is violated: labels and
  relocations are kept in the `JitMemory` and name a page by its number (`C79_moved`, `C79_corrupted`). What remains
  true: nothing is written outside the allocations, no two pages share memory, and `JitMemory`s whose pages are not
  exchanged are not affected.
-/

namespace Monoasm
open Spec

variable {b : Nat → Nat} {mem : Nat → Byte}

/-- Whatever calls have been made and whatever pages have been exchanged (panics caught, patches included): no call
    other than a patch changes a byte outside the allocations. -/
theorem C79_call_partial {ms : List Move} (hv : ∀ m ∈ ms, m.Valid) (i : Nat) {op : Op} (hp : ¬ op.isPatch)
    {a : Nat} (ha : ∀ i, ¬ Owns (b i) a) :
    (runMoves (ms ++ [.call i op]) (.new b mem)).mem a = (runMoves ms (.new b mem)).mem a := by
  obtain ⟨σ, h⟩ := dealt_moves hv (dealt_new b mem)
  have e : ∀ (ms : List Move) F, runMoves (ms ++ [.call i op]) F = (runMoves ms F).call i op := by
    intro ms
    induction ms with
    | nil => intro F; rfl
    | cons m ms ih => intro F; exact ih _
  rw [e]
  exact call_home h hp ha

/-- Without patches, no byte outside the allocations is ever changed. -/
theorem C79_safe_partial {ms : List Move} (hv : ∀ m ∈ ms, m.Valid) (ht : ∀ m ∈ ms, m.Tame) {a : Nat} (ha : ∀ i, ¬ Owns (b i) a) :
    (runMoves ms (.new b mem)).mem a = mem a := by
  suffices ∀ F σ, Dealt b F σ → (runMoves ms F).mem a = F.mem a from this _ _ (dealt_new b mem)
  induction ms with
  | nil => intro F σ _; rfl
  | cons m ms ih =>
    intro F σ h
    have ih := ih (fun m hm => hv m (by simp [hm])) (fun m hm => ht m (by simp [hm]))
    have h1 := hv m (by simp)
    have h2 := ht m (by simp)
    cases m with
    | call i op => exact (ih _ _ (h.call i op)).trans (call_home h h2 ha)
    | swap i p j q => exact ih _ _ (h.swap h1.1 h1.2)

/-- No two pages share memory: what is emitted on one is not on another. -/
theorem C79_apart_partial (hb : Scattered b) {ms : List Move} (hv : ∀ m ∈ ms, m.Valid) {i j : Nat} {p q : Page} (hp : p < 3) (hq : q < 3)
    (hne : ¬ (i = j ∧ p = q)) :
    let F := runMoves ms (.new b mem)
    ((F.jit i).pages p).contents + PAGE_SIZE ≤ ((F.jit j).pages q).contents
    ∨ ((F.jit j).pages q).contents + PAGE_SIZE ≤ ((F.jit i).pages p).contents := by
  intro F
  obtain ⟨σ, h⟩ := dealt_moves hv (dealt_new b mem)
  rw [h.contents i p hp, h.contents j q hq]
  have h1 := h.page i p hp
  have h2 := h.page j q hq
  have h3 : σ i p ≠ σ j q := fun e => hne (h.once i p j q hp hq e)
  have h4 := hb (σ i p).1 (σ j q).1
  have h5 : (σ i p).1 = (σ j q).1 → (σ i p).2 ≠ (σ j q).2 := fun e1 e2 => h3 (Prod.ext e1 e2)
  generalize σ i p = x at *
  generalize σ j q = y at *
  obtain ⟨x1, x2⟩ := x
  obtain ⟨y1, y2⟩ := y
  dsimp only at *
  have hx : x2 = 0 ∨ x2 = 1 ∨ x2 = 2 := page_cases h1
  have hy : y2 = 0 ∨ y2 = 1 ∨ y2 = 2 := page_cases h2
  by_cases e : x1 = y1
  · subst e
    have := h5 rfl
    rcases hx with rfl | rfl | rfl <;> rcases hy with rfl | rfl | rfl <;> first | exact absurd rfl this | omega
  · have := h4 e
    rcases hx with rfl | rfl | rfl <;> rcases hy with rfl | rfl | rfl <;> omega

/-- A `JitMemory` whose pages are not exchanged has the records and the bytes in its pages that its own calls alone
    produce, whatever is done with the others (patches on these excepted). -/
theorem C79_alone_partial (hb : Scattered b) {k : Nat} {ms : List Move} (hs : ∀ m ∈ ms, m.Spares k) :
    let s := (runMoves ms (.new b mem)).at k
    let t := reach (b k) mem (movesOf k ms)
    SameRecords s t ∧ ∀ a, Owns (b k) a → s.mem a = t.mem a := by
  intro s t
  have h := alone_moves hb hs (dealt_new b mem) (fun _ _ => rfl) (t := JitMemory.new (b k) mem) ⟨.refl _, fun _ _ => rfl⟩
  exact ⟨h.records, h.bytes⟩

/-- Two pages that are exchanged twice are where they were. -/
theorem C79_back_partial (F : Fleet) (i j : Nat) (p q : Page) : (F.swap i p j q).swap i p j q = F := by
  obtain ⟨jit, m⟩ := F
  simp only [Fleet.swap]
  congr 1
  funext k
  have : ∀ f, f = (jit k).pages → ({ jit k with pages := f } : JitMemory) = jit k := by rintro _ rfl; rfl
  refine this _ ?_
  funext r
  grind

/-! ### Violations -/

/-- Allocations 1 GB apart. -/
def C79_bases (i : Nat) : Nat := 0x40000000 * (i + 1)

theorem C79_bases_ok : Scattered C79_bases := by
  intro i j h
  simp only [C79_bases]
  rw [PAGE_SIZE_eq]
  omega

/-- A function at the start of page 0: its label has the address of the code. The pages are exchanged: the label has an
    address in the other allocation. -/
def C79_fun : List Move := [.call 0 (.new .label), .call 0 (.inst (.Label 0)), .call 0 (.inst .Ret), .call 0 .finalize]

theorem C79_moved :
    HasAddress ((runMoves C79_fun (.new C79_bases fun _ => 0)).at 0) 0 0x40000000
    ∧ HasAddress ((runMoves (C79_fun ++ [.swap 0 0 1 0]) (.new C79_bases fun _ => 0)).at 0) 0 0x80000000
    ∧ (runMoves (C79_fun ++ [.swap 0 0 1 0]) (.new C79_bases fun _ => 0)).mem 0x40000000 = 0xc3
    ∧ (runMoves (C79_fun ++ [.swap 0 0 1 0]) (.new C79_bases fun _ => 0)).mem 0x80000000 = 0 :=
  ⟨⟨rfl, rfl⟩, ⟨rfl, rfl⟩, by decide +kernel, by decide +kernel⟩

/-- A jump on `JitMemory` 0, `movq rax, rbx; ret` (48 89 d8 c3) on `JitMemory` 1; the pages are exchanged, and the distance
    of the jump is written over the code of `JitMemory` 1. -/
def C79_jump : List Move :=
  [.call 0 (.new .label), .call 0 (.inst (.Jmp (.rel 0))), .call 0 (.inst (.Label 0)), .call 1 (.emit [0x48, 0x89, 0xd8, 0xc3]),
   .swap 0 0 1 0]

theorem C79_corrupted :
    let F := runMoves C79_jump (.new C79_bases fun _ => 0xcc)
    let G := F.call 0 .finalize
    [F.mem 0x80000000, F.mem 0x80000001, F.mem 0x80000002, F.mem 0x80000003] = [0x48, 0x89, 0xd8, 0xc3]
    ∧ [G.mem 0x80000000, G.mem 0x80000001, G.mem 0x80000002, G.mem 0x80000003] = [0x48, 0, 0, 0] := by
  decide +kernel

/-- The hypotheses are met by the moves of the witness; a third `JitMemory`, with a function of its own, is not affected. -/
example (m : Nat → Byte) :
    let ms := C79_jump ++ [.call 2 (.inst .Leave), .call 0 .finalize, .call 2 (.inst .Ret)]
    (runMoves ms (.new C79_bases m)).mem 0x3fffffff = m 0x3fffffff
    ∧ ∀ a, Owns (C79_bases 2) a → (runMoves ms (.new C79_bases m)).mem a = (reach (C79_bases 2) m [.inst .Leave, .inst .Ret]).mem a := by
  intro ms
  have below : ∀ i a, a < 0x40000000 → ¬ Owns (C79_bases i) a := by
    rintro i a ha ⟨h, -⟩
    simp only [C79_bases] at h
    omega
  constructor
  · refine C79_safe_partial (b := C79_bases) (ms := ms) (mem := m) (a := 0x3fffffff) ?_ ?_ ?_
    · simp only [ms, C79_jump, List.cons_append, List.nil_append, List.forall_mem_cons, Move.Valid]
      exact ⟨trivial, trivial, trivial, trivial, ⟨by decide, by decide⟩, trivial, trivial, trivial, fun _ h => by cases h⟩
    · simp [ms, C79_jump, Move.Tame, Op.isPatch]
    · exact fun i => below i _ (by decide)
  · have h := (C79_alone_partial (k := 2) (ms := ms) (mem := m) C79_bases_ok (by simp [ms, C79_jump, Move.Spares, Op.isPatch])).2
    have e : movesOf 2 ms = [.inst .Leave, .inst .Ret] := by simp [ms, C79_jump, movesOf]
    rw [e] at h
    generalize runMoves ms (.new C79_bases m) = F at *
    generalize C79_bases 2 = b2 at *
    exact h

end Monoasm
