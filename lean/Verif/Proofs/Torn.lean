import Verif.Proofs.Spill
import Verif.Proofs.Failed
import Verif.Proofs.Order
/-
  A jump that does not fit on its page, and the calls of `finalize` that follow.
-/

namespace Monoasm
open Spec JitMemory

/-- A page with three bytes left, a label bound at the cursor. -/
structure Tight (s : JitMemory) (c : Nat) : Prop where
  page : s.page = 0
  objects : ∀ p, (s.pages p).constants = [] ∧ (s.pages p).data = []
  counter : (s.pages 0).counter = c

theorem tight_emit (base mem) (bs : List Byte) (hb : bs.length ≤ PAGE_SIZE) :
    Tight (reach base mem [.new .label, .emit bs]) bs.length ∧ (reach base mem [.new .label, .emit bs]).labels = [LabelInfo.new]
    ∧ ((reach base mem [.new .label, .emit bs]).pages 0).contents = base
    ∧ runOps [.new .label, .emit bs] (JitMemory.new base mem) = .ok () (reach base mem [.new .label, .emit bs]) := by
  have e2 : (Op.emit bs).run (newState .label (JitMemory.new base mem))
      = .ok () (emitted (newState .label (JitMemory.new base mem)) 0 bs) :=
    emit_fits _ _ (by show 0 + bs.length ≤ _; omega)
  have e1 : ((Op.new .label).run (JitMemory.new base mem)).state = newState .label (JitMemory.new base mem) := by
    simp only [Op.run]; rw [ok_bind (newCall_run _ _)]; rfl
  have e : reach base mem [.new .label, .emit bs] = emitted (newState .label (JitMemory.new base mem)) 0 bs := by
    rw [reach, runCaught_cons, e1, runCaught_cons, e2]; rfl
  have e3 : (Op.new .label).run (JitMemory.new base mem) = .ok () (newState .label (JitMemory.new base mem)) := by
    simp only [Op.run]; rw [ok_bind (newCall_run _ _)]; rfl
  rw [e]
  refine ⟨⟨rfl, fun p => ?_, ?_⟩, rfl, ?_, ?_⟩
  · simp [emitted, newState_label, JitMemory.new, MemPage.new]
    split <;> simp
  · simp [emitted, newState_label, JitMemory.new, MemPage.new]
  · simp [emitted, newState_label, JitMemory.new, MemPage.new]
  · simp only [runOps]
    rw [ok_bind e3, ok_bind e2]; rfl

/-- The jump to the label panics after it has been recorded. -/
theorem tight_jmp {s : JitMemory} {c} (h : Tight s c) (hl : s.labels = [LabelInfo.new]) (hc : c + 3 = PAGE_SIZE) :
    let s' := runCaught [.bind_label 0, .inst (.Jmp (.rel 0))] s
    Tight s' (c + 1) ∧ s'.labels = [⟨some (0, c), [.rel 0 4 (c + 1)]⟩] ∧ (s'.pages 0).contents = (s.pages 0).contents := by
  intro s'
  obtain ⟨h1, h2, h3⟩ := h
  let B : JitMemory := { s with labels := [⟨some (0, c), []⟩] }
  have e1 : (Op.bind_label 0).run s = .ok () B := by
    simp only [Op.run, JitMemory.bind_label, M.bind_def, MemPage.counterOf, modifyLabel, h1, hl, h3, JitMemory.cur,
      List.length_singleton, if_pos Nat.zero_lt_one, B]
    rfl
  let C : JitMemory := emitted B 0 [0xe9]
  have hB : B.page = 0 := h1
  have e2 : JitMemory.emit [0xe9] B = .ok () C := by
    have := emit_fits [0xe9] B (by show (B.pages B.page).counter + 1 ≤ _; rw [hB]; show (s.pages 0).counter + 1 ≤ _; omega)
    rw [this, hB]
  let D : JitMemory := { C with page := 0, labels := [⟨some (0, c), [.rel 0 4 (c + 1)]⟩] }
  have e3 : JitMemory.save_reloc 0 4 C = .ok () D := by
    rw [save_reloc_run]
    have : C.labels = [⟨some (0, c), []⟩] := rfl
    have hp : C.page = 0 := h1
    have hk : (C.pages 0).counter = c + 1 := by simp [C, emitted, B, h3]
    rw [this, hp, hk, if_pos (by simp)]
    rfl
  have e4 : JitMemory.emitl 0 D = .panic .pageSizeOverflow (spilled D 0 (le32 0)) := by
    have hp : D.page = 0 := rfl
    simp only [JitMemory.emitl, cur_bind, emitl_run, emitRes, hp]
    have hk : (D.pages 0).counter = c + 1 := by simp [D, C, emitted, B, h3]
    rw [if_neg]
    rw [hk]; simp only [le32, List.length_cons, List.length_nil]; omega
  have e5 : (Op.inst (.Jmp (.rel 0))).run B = .panic .pageSizeOverflow (spilled D 0 (le32 0)) := by
    show JitMemory.enc_d [0xe9] 0 B = _
    simp only [JitMemory.enc_d]
    rw [ok_bind e2, ok_bind e3, e4]
  have e : s' = spilled D 0 (le32 0) := by
    simp only [s']
    rw [runCaught_cons, e1, runCaught_cons, Res.state_ok, e5]; rfl
  rw [e]
  refine ⟨⟨rfl, fun p => ?_, ?_⟩, rfl, ?_⟩
  · by_cases hp : p = 0
    · subst hp; simp [spilled, D, C, emitted, B, h2]
    · simp [spilled, D, C, emitted, B, h2, hp]
  · simp [spilled, D, C, emitted, B, h3]
  · simp [spilled, D, C, emitted, B]

theorem fill_tears {s : JitMemory} {c : Nat} (hc : c + 3 = PAGE_SIZE)
    (hl : s.labels = [⟨some (0, c), [.rel 0 4 (c + 1)]⟩]) :
    ∃ s', fill_relocs s = .panic .pageSizeOverflow s' ∧ s'.labels = [] ∧ s'.mem ((s.pages 0).contents + (c + 1)) = 0xfb := by
  have e : ((((s.pages 0).contents + c : Nat) : Int)
      - (((s.pages 0).contents + (c + 1) + (4 : BitVec 8).toNat : Nat) : Int)) = -5 := by
    have : (4 : BitVec 8).toNat = 4 := rfl
    omega
  have e1 : i32TryFromInt (-5) = some (BitVec.ofInt 32 (-5)) := rfl
  have h0 : fill_relocs s = (do
      let reloc ← fillLabels [⟨some (0, c), [.rel 0 4 (c + 1)]⟩]
      M.modify fun s => { s with labels := reloc } : M Unit) { s with labels := [] } := by
    rw [← hl]; rfl
  have h1 : fillTarget ((s.pages 0).contents + c) (.rel 0 4 (c + 1)) { s with labels := [] }
      = writes 0 (c + 1) (le32 (BitVec.ofInt 32 (-5))) { s with labels := [] } := by
    simp only [fillTarget, M.bind_def, M.get, e, e1, write32_run]
  rw [writes_run, if_neg (by simp [le32]; omega)] at h1
  rw [h0]
  simp only [fillLabels, fillLabel, fillTargets, M.bind_def, M.get, h1]
  refine ⟨_, rfl, rfl, ?_⟩
  rw [show PAGE_SIZE - (c + 1) = 2 by omega]
  have := putBytes_in s.mem (a := (s.pages 0).contents + (c + 1)) (bs := (le32 (BitVec.ofInt 32 (-5))).take 2) (i := 0) (by decide)
  exact this

theorem finalize_tears (s : JitMemory) {c : Nat} (hc : c + 3 = PAGE_SIZE)
    (hp : ∀ p, (s.pages p).constants = [] ∧ (s.pages p).data = [])
    (hl : s.labels = [⟨some (0, c), [.rel 0 4 (c + 1)]⟩]) :
    ∃ s', finalize s = .panic .pageSizeOverflow s' ∧ s'.labels = [] ∧ s'.mem ((s.pages 0).contents + (c + 1)) = 0xfb := by
  let s1 : JitMemory := { s with pages := fun p => if p < 3 then openBlock (s.pages p) else s.pages p }
  let s2 : JitMemory := { s1 with pages := fun p => if p < 3 then closeBlock (s1.pages p) else s1.pages p }
  have h1 : forPages openBlock s = .ok () s1 := rfl
  have h2 : resolve_constants s1 = .ok () s1 ∧ resolve_data s1 = .ok () s1 :=
    resolve_nothing s1 (by intro p; by_cases h : p < 3 <;> simp [s1, h, openBlock, hp])
  have h3 : forPages closeBlock s1 = .ok () s2 := rfl
  obtain ⟨s', k1, k2, k3⟩ := fill_tears (s := s2) hc hl
  refine ⟨s', ?_, k2, k3⟩
  simp only [finalize]
  rw [ok_bind h1, ok_bind h2.1, ok_bind h2.2, ok_bind h3]
  exact panic_bind k1

/-- A complete instruction that follows the jump. -/
theorem tight_ret {s : JitMemory} {c : Nat} (h : Tight s (c + 1)) (hc : c + 3 = PAGE_SIZE) :
    ∃ s', (Op.inst .Ret).run s = .ok () s' ∧ Tight s' (c + 2) ∧ s'.labels = s.labels ∧ (s'.pages 0).contents = (s.pages 0).contents
      ∧ s'.mem ((s.pages 0).contents + (c + 1)) = 0xc3 := by
  obtain ⟨h1, h2, h3⟩ := h
  refine ⟨emitted s 0 [0xc3], ?_, ⟨h1, fun p => ?_, ?_⟩, rfl, ?_, ?_⟩
  · show JitMemory.emitb 0xc3 s = _
    simp only [JitMemory.emitb, cur_bind, emitb_run, emitRes, h1]
    rw [if_pos (by rw [h3]; simp only [List.length_cons, List.length_nil]; omega)]
  · by_cases hp : p = 0
    · subst hp; simp [emitted, h2]
    · simp [emitted, h2, hp]
  · simp [emitted, h3]
  · simp [emitted]
  · have := putBytes_in s.mem (a := (s.pages 0).contents + (c + 1)) (bs := [0xc3]) (i := 0) (by decide)
    simp only [emitted, h3]
    exact this

/-- The history: a jump that does not fit, and a return. -/
def tornHist (bs : List Byte) : List Op := [.new .label, .emit bs, .bind_label 0, .inst (.Jmp (.rel 0))]

theorem torn (base mem) (bs : List Byte) (hb : bs.length + 3 = PAGE_SIZE) :
    (∃ s', finalize (reach base mem (tornHist bs)) = .panic .pageSizeOverflow s' ∧ s'.labels = [])
    ∧ (∃ s', (Op.inst .Ret).run (reach base mem (tornHist bs)) = .ok () s')
    ∧ here (reach base mem (tornHist bs)) = base + (bs.length + 1)
    ∧ (reach base mem (tornHist bs)).labels.length = 1
    ∧ (reach base mem (tornHist bs ++ [.inst .Ret])).mem (base + (bs.length + 1)) = 0xc3
    ∧ ∃ s', finalize (reach base mem (tornHist bs ++ [.inst .Ret])) = .panic .pageSizeOverflow s'
      ∧ s'.mem (base + (bs.length + 1)) = 0xfb := by
  obtain ⟨t1, t2, t3, -⟩ := tight_emit base mem bs (by omega)
  obtain ⟨u1, u2, u3⟩ := tight_jmp t1 t2 hb
  have e : runCaught [.bind_label 0, .inst (.Jmp (.rel 0))] (reach base mem [.new .label, .emit bs]) = reach base mem (tornHist bs) := by
    rw [reach, reach, ← runCaught_append]; rfl
  rw [e] at u1 u2 u3
  rw [t3] at u3
  obtain ⟨r, r1, r2, r3, r4, r5⟩ := tight_ret u1 hb
  have er : reach base mem (tornHist bs ++ [.inst .Ret]) = r := by
    rw [reach, runCaught_append, runCaught_cons]
    show ((Op.inst .Ret).run (reach base mem (tornHist bs))).state = r
    rw [r1]; rfl
  obtain ⟨f, f1, f2, -⟩ := finalize_tears _ hb u1.objects u2
  obtain ⟨g, g1, -, g3⟩ := finalize_tears r hb r2.objects (r3.trans u2)
  rw [er]
  rw [r4, u3] at g3
  rw [u3] at r5
  exact ⟨⟨f, f1, f2⟩, ⟨r, r1⟩, by rw [here, u1.page, u3, u1.counter], by rw [u2]; rfl, r5, g, g1, g3⟩

/-! ### No room for an address -/

/-- The state left by the first `finalize`: the object has got its label and its field, both at the end
    of the page. -/
theorem finalize_dead {s : JitMemory} {c : Nat} (h1 : s.labels = [⟨some (0, c), []⟩, LabelInfo.new])
    (h2 : (s.pages 0).constants = [(.absAddress 0, 1)]) (h3 : ∀ p, p ≠ 0 → (s.pages p).constants = []) (h4 : ∀ p, (s.pages p).data = [])
    (h5 : (s.pages 0).counter = PAGE_SIZE) :
    ∃ s', finalize s = .panic .pageSizeOverflow s' ∧ s'.labels = [⟨some (0, c), [.abs 0 PAGE_SIZE]⟩, ⟨some (0, PAGE_SIZE), []⟩]
      ∧ (∀ p, (s'.pages p).constants = [] ∧ (s'.pages p).data = []) ∧ ∀ p, (s'.pages p).counter = (s.pages p).counter := by
  let s1 : JitMemory := { s with pages := fun p => if p < 3 then openBlock (s.pages p) else s.pages p }
  have e1 : forPages openBlock s = .ok () s1 := rfl
  let s2 : JitMemory := s1.updPage 0 fun pg => { pg with constants := [] }
  have ek : (s1.pages 0).constants = [(.absAddress 0, 1)] := h2
  have ec : (s2.pages 0).counter = PAGE_SIZE := h5
  have ea : MemPage.alignUp PAGE_SIZE 7 = PAGE_SIZE := by decide
  let s3 : JitMemory := skipped s2 0 PAGE_SIZE
  have e3 : MemPage.align8 0 s2 = .ok () s3 := by
    have := alignOp_run 3 0 s2
    rw [ec, show MemPage.alignUp PAGE_SIZE (2 ^ 3 - 1) = PAGE_SIZE from ea] at this
    exact this
  have c3 : (s3.pages 0).counter = PAGE_SIZE := by simp [s3, skipped]
  let s4 : JitMemory := { s3 with labels := [⟨some (0, c), []⟩, ⟨some (0, PAGE_SIZE), []⟩] }
  have l3 : s3.labels = [⟨some (0, c), []⟩, LabelInfo.new] := h1
  have e4 : bind_label_with_page 0 1 s3 = .ok () s4 := by
    simp only [bind_label_with_page, checkPage, M.bind_def, MemPage.counterOf, modifyLabel]
    rw [if_pos (show (0 : Nat) < 3 by decide)]
    simp only [c3, l3]
    rfl
  let s5 : JitMemory := { s4 with labels := [⟨some (0, c), [.abs 0 PAGE_SIZE]⟩, ⟨some (0, PAGE_SIZE), []⟩] }
  have e5 : save_absolute_reloc 0 0 s4 = .ok () s5 := by
    rw [save_absolute_reloc_run]
    have c4 : (s4.pages 0).counter = PAGE_SIZE := c3
    have l4 : s4.labels = [⟨some (0, c), []⟩, ⟨some (0, PAGE_SIZE), []⟩] := rfl
    rw [c4, l4]
    rfl
  have e6 : MemPage.emitq 0 0 s5 = .panic .pageSizeOverflow (spilled s5 0 (le32 0)) := by
    simp only [MemPage.emitq]
    refine panic_bind ?_
    rw [show (BitVec.setWidth 32 (0 : BitVec 64)) = 0 from rfl, emitl_run, emitRes, if_neg]
    have c5 : (s5.pages 0).counter = PAGE_SIZE := c3
    rw [c5]; simp only [le32, List.length_cons, List.length_nil]; omega
  have e7 : resolveConstantsOf 0 s1 = .panic .pageSizeOverflow (spilled s5 0 (le32 0)) := by
    simp only [resolveConstantsOf, M.bind_def, M.get, M.modify, ek]
    show resolveList 0 [(.absAddress 0, 1)] s2 = _
    simp only [resolveList, resolveOne]
    refine panic_bind ?_
    rw [ok_bind e3, ok_bind e4, ok_bind e5, e6]
  refine ⟨spilled s5 0 (le32 0), ?_, rfl, fun p => ?_, fun p => ?_⟩
  · simp only [finalize]
    rw [ok_bind e1]
    refine panic_bind ?_
    simp only [resolve_constants]
    exact panic_bind e7
  · by_cases hp : p = 0
    · subst hp; simp [spilled, s5, s4, s3, skipped, s2, JitMemory.updPage, s1, openBlock, h4]
    · by_cases hp3 : p < 3 <;> simp [spilled, s5, s4, s3, skipped, s2, JitMemory.updPage, s1, openBlock, h3, h4, hp, hp3]
  · by_cases hp : p = 0
    · subst hp; simp [spilled, s5, s4, s3, skipped, h5]
    · by_cases hp3 : p < 3 <;> simp [spilled, s5, s4, s3, skipped, s2, JitMemory.updPage, s1, openBlock, hp, hp3]

/-- A full page, and an object that waits for room on it. -/
def fullHist (bs : List Byte) : List Op := [.new .label, .emit bs, .bind_label 0, .new (.abs_address 0)]

theorem full (base mem) (bs : List Byte) (hb : bs.length = PAGE_SIZE) :
    (∃ s', runOps (fullHist bs) (JitMemory.new base mem) = .ok () s')
    ∧ (∃ e s', finalize (reach base mem (fullHist bs)) = .panic e s' ∧ s'.labels.length = 2)
    ∧ ∃ e s', finalize (reach base mem (fullHist bs ++ [.finalize])) = .panic e s' ∧ s'.labels = [] := by
  obtain ⟨t1, t2, t3, t4⟩ := tight_emit base mem bs (by omega)
  obtain ⟨h1, h2, h3⟩ := t1
  generalize hs : reach base mem [.new .label, .emit bs] = s at *
  let B : JitMemory := { s with labels := [⟨some (0, bs.length), []⟩] }
  have e1 : (Op.bind_label 0).run s = .ok () B := by
    simp only [Op.run, JitMemory.bind_label, M.bind_def, MemPage.counterOf, modifyLabel, h1, t2, h3, JitMemory.cur,
      List.length_singleton, if_pos Nat.zero_lt_one, B]
    rfl
  have e2 : (Op.new (.abs_address 0)).run B = .ok () (newState (.abs_address 0) B) := by
    simp only [Op.run]; rw [ok_bind (newCall_run _ _)]; rfl
  have e : reach base mem (fullHist bs) = newState (.abs_address 0) B := by
    rw [show fullHist bs = [.new .label, .emit bs] ++ [.bind_label 0, .new (.abs_address 0)] from rfl, reach, runCaught_append]
    show runCaught _ (reach base mem [.new .label, .emit bs]) = _
    rw [hs, runCaught_cons, e1, runCaught_cons, Res.state_ok, e2]; rfl
  have g0 : (newState (.abs_address 0) B).pages 0 = { s.pages 0 with constants := (s.pages 0).constants ++ [(.absAddress 0, 1)], data := (s.pages 0).data ++ [] } := by
    show (if (0 : Nat) = s.page then _ else _) = _
    rw [h1, if_pos rfl]; rfl
  have g1 : ∀ p, p ≠ 0 → (newState (.abs_address 0) B).pages p = s.pages p := by
    intro p hp
    show (if p = s.page then _ else _) = _
    rw [h1, if_neg hp]
  obtain ⟨f, f1, f2, f3, f4⟩ := finalize_dead (s := newState (.abs_address 0) B) rfl
    (by rw [g0]; show (s.pages 0).constants ++ _ = _; rw [(h2 0).1]; rfl) (fun p hp => by rw [g1 p hp]; exact (h2 p).1)
    (fun p => by
      by_cases hp : p = 0
      · subst hp; rw [g0]; show (s.pages 0).data ++ _ = _; rw [(h2 0).2]; rfl
      · rw [g1 p hp]; exact (h2 p).2)
    (by rw [g0]; exact h3.trans hb)
  have e3 : reach base mem (fullHist bs ++ [.finalize]) = f := by
    rw [reach, runCaught_append, runCaught_cons]
    show (JitMemory.finalize (reach base mem (fullHist bs))).state = f
    rw [e, f1]; rfl
  refine ⟨?_, ⟨_, f, e ▸ f1, by rw [f2]; rfl⟩, ?_⟩
  · have : fullHist bs = [.new .label, .emit bs] ++ [.bind_label 0, .new (.abs_address 0)] := rfl
    rw [this]
    refine ⟨newState (.abs_address 0) B, runOps_append.2 ⟨s, t4, ?_⟩⟩
    · simp only [runOps]
      rw [ok_bind e1, ok_bind e2]; rfl
  · rw [e3]
    have hi : Inv base f := e3 ▸ inv_reach base mem _
    have hff : ¬ FieldsFit f := by
      intro h
      have := h 0 (.abs 0 PAGE_SIZE) (by simp [targets, f2]) (.inl ⟨(0, bs.length), by simp [get_label_pos, labelInfo, f2, M.bind_def]; rfl⟩)
      simp [Live, TargetType.pos, TargetType.size] at this
      omega
    cases ef : finalize f with
    | ok u g => exact absurd ((finalize_iff hi).1 ⟨g, ef⟩).2.2 hff
    | panic er g =>
      refine ⟨er, g, rfl, ?_⟩
      have hr : HasRoom f := by
        refine ⟨?_, ?_, ?_⟩
        · rw [(f3 0).1]; exact hi.counter 0
        · rw [(f3 1).1]; exact hi.counter 1
        · rw [(f3 0).2, (f3 1).2]; exact hi.counter 2
      have hn : NamesKnown f := by
        rintro d l ⟨p, -, h⟩
        rw [(f3 p).1, (f3 p).2] at h
        simp at h
      rcases finalize_failed hi ef with ⟨h, -⟩ | ⟨-, -, -, h⟩
      · exact absurd ⟨hr, hn⟩ h
      · exact h.labels

end Monoasm
