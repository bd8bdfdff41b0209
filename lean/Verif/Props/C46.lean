import Verif.Proofs.Order
/-
  C46: order independence across pages.

  A code generator is given as a list of statements, each for one of the pages. Two generators are
  interleavings of the same per-page programs if their statements for page `p` are the same, in the
  same order, for every `p`. They start in the same state, reached by any calls, and end with
  `finalize`. Labels are numbered in the order of their creation, which differs, so the statements
  refer to labels by variables (`Spec/Interleave.lean`).

  Assumed: variables are assigned before they are used and only once; labels are not bound by
  statements for different pages (`C46_two_binders` shows that this is needed).
-/

namespace Monoasm
open Spec

variable {base : Nat} {mem : Nat → Byte} {h : List Op} {T1 T2 : List Stmt}

/-- If one interleaving gets through to the end of `finalize`, so does the other, and all bytes, all
    page records (cursors, code blocks) and the addresses of all labels are the same. -/
theorem C46_order (hA : Alloc base) (hr : NoRaw h) :
    let s := reach base mem h
    let n := s.labels.length
    Closed s → Orderly n T1 → Scoped n T1 → Scoped n T2 → Interleaved T1 T2 →
    ∀ s1, runOps (calls n [] T1 ++ [.finalize]) s = .ok () s1 →
    ∃ s2, runOps (calls n [] T2 ++ [.finalize]) s = .ok () s2 ∧ s2.mem = s1.mem ∧ s2.pages = s1.pages ∧
      s2.labels.length = s1.labels.length ∧
      ∀ x, InScope n (assigned T1) x → ∀ a,
        HasAddress s1 (valueOf n (assigned T1) x) a ↔ HasAddress s2 (valueOf n (assigned T2) x) a := by
  intro s n hc o c1 c2 hI s1 h1
  have hv := hinv_reach (base := base) (mem := mem) hr
  obtain ⟨u1, k1, k2⟩ := runOps_append.1 h1
  have k2 : JitMemory.finalize u1 = .ok () s1 := runOps_finalize.1 k2
  obtain ⟨u2, j1, v1, v2, t⟩ := interleave_twin hv hc o c1 c2 hI k1
  obtain ⟨s2, j2, t2⟩ := t.finalize v1 v2 k2
  refine ⟨s2, runOps_append.2 ⟨u2, j1, runOps_finalize.2 j2⟩, t2.mem.symm, (t2.pages_eq (finalize_lists v1 k2)).symm, t2.len.symm, ?_⟩
  intro x hx a
  rw [hasAddress_iff (finalize_hinv v1 k2).inv hA.pos, hasAddress_iff (finalize_hinv v2 j2).inv hA.pos, t2.loc x hx]

/-- The same before `finalize`, up to the numbers of labels: same bytes, cursors and label addresses. -/
theorem C46_before (hA : Alloc base) (hr : NoRaw h) :
    let s := reach base mem h
    let n := s.labels.length
    Closed s → Orderly n T1 → Scoped n T1 → Scoped n T2 → Interleaved T1 T2 →
    ∀ s1, runOps (calls n [] T1) s = .ok () s1 →
    ∃ s2, runOps (calls n [] T2) s = .ok () s2 ∧ s2.mem = s1.mem ∧ (∀ p, cursor s2 p = cursor s1 p) ∧
      ∀ x, InScope n (assigned T1) x → ∀ a,
        HasAddress s1 (valueOf n (assigned T1) x) a ↔ HasAddress s2 (valueOf n (assigned T2) x) a := by
  intro s n hc o c1 c2 hI s1 h1
  obtain ⟨s2, j1, v1, v2, t⟩ := interleave_twin (hinv_reach (base := base) (mem := mem) hr) hc o c1 c2 hI h1
  refine ⟨s2, j1, t.mem.symm, fun p => (t.counter p).symm, fun x hx a => ?_⟩
  rw [hasAddress_iff v1.inv hA.pos, hasAddress_iff v2.inv hA.pos, t.loc x hx]

/-- The relation between interleavings is symmetric, so either both get through or none. -/
theorem C46_outcome (hr : NoRaw h) :
    let s := reach base mem h
    let n := s.labels.length
    Closed s → Orderly n T1 → Scoped n T1 → Scoped n T2 → Interleaved T1 T2 →
    ((∃ s1, runOps (calls n [] T1 ++ [.finalize]) s = .ok () s1) ↔ ∃ s2, runOps (calls n [] T2 ++ [.finalize]) s = .ok () s2) := by
  intro s n hc o c1 c2 hI
  have key : ∀ {T1 T2 : List Stmt}, Orderly n T1 → Scoped n T1 → Scoped n T2 → Interleaved T1 T2 →
      (∃ s1, runOps (calls n [] T1 ++ [.finalize]) s = .ok () s1) → ∃ s2, runOps (calls n [] T2 ++ [.finalize]) s = .ok () s2 := by
    rintro T1 T2 o c1 c2 hI ⟨s1, h1⟩
    obtain ⟨u1, k1, k2⟩ := runOps_append.1 h1
    have k2 : JitMemory.finalize u1 = .ok () s1 := runOps_finalize.1 k2
    obtain ⟨u2, j1, v1, v2, t⟩ := interleave_twin (hinv_reach (base := base) (mem := mem) hr) hc o c1 c2 hI k1
    obtain ⟨s2, j2, _⟩ := t.finalize v1 v2 k2
    exact ⟨s2, runOps_append.2 ⟨u2, j1, runOps_finalize.2 j2⟩⟩
  exact ⟨key o c1 c2 hI, key (orderly_perm o (interleaved_perm hI)) c2 c1 (interleaved_symm hI)⟩

/-! ### An example -/

/-- A jump from page 0 to a label on page 1, a constant for page 1, the address of the label for
    page 0; one page, then the other. -/
def apart : List Stmt :=
  [⟨0, .new .label, 0⟩, ⟨0, .inst (.Jmp (.rel 0)), 0⟩, ⟨0, .new (.abs_address 0), 2⟩,
   ⟨1, .new (.const_i64 7), 1⟩, ⟨1, .inst .Int3, 0⟩, ⟨1, .inst (.Label 0), 0⟩,
   ⟨1, .inst (.Movq (.reg (.reg 0)) (.ind ⟨.reg 16, .none, .label 1⟩)), 0⟩, ⟨1, .inst .Ret, 0⟩]

/-- In turns. -/
def mixed : List Stmt :=
  [⟨0, .new .label, 0⟩, ⟨1, .new (.const_i64 7), 1⟩, ⟨1, .inst .Int3, 0⟩, ⟨0, .inst (.Jmp (.rel 0)), 0⟩,
   ⟨1, .inst (.Label 0), 0⟩, ⟨0, .new (.abs_address 0), 2⟩,
   ⟨1, .inst (.Movq (.reg (.reg 0)) (.ind ⟨.reg 16, .none, .label 1⟩)), 0⟩, ⟨1, .inst .Ret, 0⟩]

/-- Both assumptions and conclusion hold; constant and address object have different labels. -/
example :
    let s := reach 0x10000000 (fun _ => 0xcc) []
    let s1 := runCaught (calls 0 [] apart ++ [.finalize]) s
    let s2 := runCaught (calls 0 [] mixed ++ [.finalize]) s
    Closed s ∧ Orderly 0 apart ∧ Scoped 0 apart ∧ Scoped 0 mixed ∧ Interleaved apart mixed
    ∧ (runOps (calls 0 [] apart ++ [.finalize]) s).isOk
    ∧ valueOf 0 (assigned apart) 1 = 2 ∧ valueOf 0 (assigned mixed) 1 = 1
    ∧ s1.locOf 2 = some (1, 16) ∧ s2.locOf 1 = some (1, 16)
    ∧ bytes s1.mem 0x10000000 5 = [0xe9, 0xfc, 0xff, 0xff, 0x0f] ∧ bytes s2.mem 0x10000000 5 = [0xe9, 0xfc, 0xff, 0xff, 0x0f] := by
  refine ⟨?_, ⟨?_, ?_, ?_, ?_⟩, scoped_test rfl, scoped_test rfl, ?_, ?_⟩
  · intro p x l hm; simp [JitMemory.new, MemPage.new, reach, runCaught] at hm
  · intro st hs
    simp only [apart, List.mem_cons, List.not_mem_nil, or_false] at hs
    rcases hs with rfl | rfl | rfl | rfl | rfl | rfl | rfl | rfl <;> exact ⟨trivial, fun _ _ h => nomatch h⟩
  · decide
  · simp
  · intro a ha b hb x h1 h2
    simp only [apart, List.mem_cons, List.not_mem_nil, or_false] at ha hb
    rcases ha with rfl | rfl | rfl | rfl | rfl | rfl | rfl | rfl <;> (try exact absurd h1 id) <;>
    rcases hb with rfl | rfl | rfl | rfl | rfl | rfl | rfl | rfl <;> (first | rfl | exact absurd h2 id)
  · intro p
    simp only [apart, mixed, List.filter_cons, List.filter_nil]
    by_cases h0 : (0 : Page) = p
    · subst h0; simp
    · by_cases h1 : (1 : Page) = p <;> simp [h0, h1]
  · decide +kernel

/-! ### Labels bound for two pages -/

/-- A label bound on page 0 and on page 1, and a jump to it. -/
def two1 : List Stmt :=
  [⟨0, .new .label, 0⟩, ⟨0, .inst (.Label 0), 0⟩, ⟨0, .inst (.Jmp (.rel 0)), 0⟩, ⟨1, .inst (.Label 0), 0⟩]
def two2 : List Stmt :=
  [⟨0, .new .label, 0⟩, ⟨1, .inst (.Label 0), 0⟩, ⟨0, .inst (.Label 0), 0⟩, ⟨0, .inst (.Jmp (.rel 0)), 0⟩]

/-- A label may be bound twice, and the last binding counts. If the bindings are on different pages
    the result depends on the interleaving. -/
theorem C46_two_binders :
    let s := reach 0x10000000 (fun _ => 0) []
    let s1 := runCaught (calls 0 [] two1 ++ [.finalize]) s
    let s2 := runCaught (calls 0 [] two2 ++ [.finalize]) s
    Scoped 0 two1 ∧ Scoped 0 two2 ∧ Interleaved two1 two2
    ∧ (runOps (calls 0 [] two1 ++ [.finalize]) s).isOk ∧ (runOps (calls 0 [] two2 ++ [.finalize]) s).isOk
    ∧ bytes s1.mem 0x10000000 5 = [0xe9, 0xfb, 0xff, 0xff, 0x0f]
    ∧ bytes s2.mem 0x10000000 5 = [0xe9, 0xfb, 0xff, 0xff, 0xff] := by
  refine ⟨scoped_test rfl, scoped_test rfl, ?_, by decide +kernel⟩
  intro p
  simp only [two1, two2, List.filter_cons, List.filter_nil]
  by_cases h0 : (0 : Page) = p
  · subst h0; simp
  · by_cases h1 : (1 : Page) = p <;> simp [h0, h1]

end Monoasm
