import Verif.Proofs.Failed
import Verif.Proofs.Protect
import Verif.Proofs.Torn
import Verif.Proofs.Objects
import Verif.Props.C49
import Verif.Props.C51
/-
  C67: a `finalize` that panics.

  Histories: any calls; panics, also those of `finalize`, are caught. A `finalize` that panics leaves
  complete code as it is. Labels, and references that wait for a label, survive if no call before has
  panicked. But the objects that waited to be placed are lost, and after an earlier panic the whole label
  table may be lost, and a byte of a complete instruction overwritten.
-/

namespace Monoasm
open Spec X86

variable {base : Nat} {mem : Nat → Monoasm.Byte} {h h' H : List Op} {s s' : JitMemory} {p : Page} {pos n : Nat} {e : Panic}
  {i : Inst Val Nat}

/-- A byte that has been emitted and is not part of a field still to be filled keeps its value, whatever
    is called afterwards and however often `finalize` panics, unless a call overwrites it explicitly. -/
theorem C67_bytes (hp : Sealed (reach base mem h) p pos) (hk : Spares p pos (reach base mem h) h') :
    (reach base mem (h ++ h')).mem (addrOf base p pos) = (reach base mem h).mem (addrOf base p pos) := by
  have := (sealed_caught (inv_reach base mem h) hp hk).2
  have e : runCaught h' (reach base mem h) = reach base mem (h ++ h') := by rw [reach, reach, runCaught_append]
  rw [e] at this
  simpa only [byteAt, (inv_reach base mem _).contents, addrOf] using this

/-- Such bytes are: the fields that a `finalize` has filled, ... -/
theorem C67_fields {l : DestLabel} {t : TargetType} {a : Nat} (hA : Alloc base) (hr : NoRaw h)
    (hfin : JitMemory.finalize (reach base mem h) = .ok () s')
    (ht : t ∈ targets (reach base mem h) l) (hl : HasAddress s' l a) (hc : Covers t t.page pos) : Sealed s' t.page pos := by
  have hi := hinv_reach (base := base) (mem := mem) hr
  refine sealed_filled hi hfin ?_ ht hc
  obtain ⟨q, c, hl, _⟩ := (hasAddress_iff (finalize_hinv hi hfin).inv hA.pos).1 hl
  rw [hl]; simp

/-- ... the constants and data objects that a `finalize` has placed (other than addresses), ... -/
theorem C67_objects {l : DestLabel} {d : DataType} {k : Nat} (hA : Alloc base) (hr : NoRaw h)
    (hfin : JitMemory.finalize (reach base mem h) = .ok () s') (hw : Waits (reach base mem h) p d l) (hx : ∀ x, d ≠ .absAddress x)
    (hl : HasAddress s' l (addrOf base p pos)) (hk : k < d.size) : Sealed s' p (pos + k) := by
  have hi := hinv_reach (base := base) (mem := mem) hr
  have F := finalize_hinv hi hfin
  obtain ⟨q, c, e1, e2⟩ := (hasAddress_iff F.inv hA.pos).1 hl
  obtain ⟨c', e3, -, -⟩ := F.placed p d l ((waits_iff hi).1 hw)
  rw [e1] at e3
  cases e3
  have e : c = pos := by simp only [addrOf] at e2; omega
  subst e
  exact sealed_object hi hfin ((waits_iff hi).1 hw) hx e1 hk

/-- ... and, if no reference waits for its label, all code, constants and data. -/
theorem C67_complete (hp : ∀ l, targets (reach base mem h) l = []) (hc : pos < cursor (reach base mem h) p) :
    Sealed (reach base mem h) p pos :=
  ⟨hc, fun l t ht => by rw [hp l] at ht; cases ht⟩

/-- So code that is complete can be executed as before (C49): what a program has to find in memory does not
    depend on the calls that follow. -/
theorem C67_code {d : Data} (hr : NoRaw H) (hn : H[n]? = some (.inst i)) (hs : ∃ s1, Runs i (reach base mem (H.take n)) s1)
    (hp : ∀ l, targets (reach base mem H) l = [])
    (hk : SparesRange (Spec.place base mem H n) (Spec.place base mem H (n + 1) - Spec.place base mem H n) (reach base mem H) h') :
    Intact base mem (H ++ h') n d ↔ Intact base mem H n d := by
  have hl : n < H.length := by
    have := List.getElem?_eq_some_iff.1 hn
    exact this.1
  have e0 : Spec.place base mem (H ++ h') n = Spec.place base mem H n := by
    rw [Spec.place, Spec.place, List.take_append_of_le_length (by omega)]
  have e1 : Spec.place base mem (H ++ h') (n + 1) = Spec.place base mem H (n + 1) := by
    rw [Spec.place, Spec.place, List.take_append_of_le_length (by omega)]
  rw [Intact, Intact, e0, e1]
  refine forall_congr' fun a => forall_congr' fun h1 => forall_congr' fun h2 => ?_
  have hin := place_page hr hn hs h1 h2
  obtain ⟨pos, ha⟩ : ∃ pos, a = addrOf base (reach base mem (H.take n)).page pos :=
    ⟨a - (base + PAGE_SIZE * (reach base mem (H.take n)).page), by simp only [inPage, addrOf] at *; omega⟩
  have hcur : pos < cursor (reach base mem H) (reach base mem (H.take n)).page := by
    have up := cursor_up (inv_reach base mem (H.take (n + 1))) (H.drop (n + 1)) (reach base mem (H.take n)).page
    have e2 : runCaught (H.drop (n + 1)) (reach base mem (H.take (n + 1))) = reach base mem H := by
      rw [reach, reach, ← runCaught_append, List.take_append_drop]
    rw [e2] at up
    refine Nat.lt_of_lt_of_le ?_ up
    obtain ⟨s1, hs⟩ := hs
    obtain ⟨its, -, hran⟩ := runs_items hs
    have i1 := inv_reach base mem (H.take (n + 1))
    rw [Spec.place, here, i1.contents] at h2
    rw [runs_reach hn hs] at h2 ⊢
    rw [hran.page] at h2
    subst ha
    simp only [addrOf, cursor] at h2 ⊢
    omega
  have hsp : Spares (reach base mem (H.take n)).page pos (reach base mem H) h' :=
    spares_range (inv_reach base mem H) (ha ▸ h1) (by rw [← ha]; omega) hk
  rw [ha, C67_bytes (C67_complete hp hcur) hsp]

/-- What a `finalize` that panics does to the labels. If the objects could not be placed, for lack of room or
    because of an unknown label, all labels are still there, with their addresses, except that objects have
    possibly been placed; and all references still wait. Otherwise a field crosses the end of its page, and
    all labels are lost. -/
theorem C67_labels (hA : Alloc base) (hfin : JitMemory.finalize (reach base mem h) = .panic e s') :
    let s := reach base mem h
    (¬ (HasRoom s ∧ NamesKnown s) ∧ s'.labels.length = s.labels.length
      ∧ (∀ l a, ¬ Pending s l → (HasAddress s' l a ↔ HasAddress s l a)) ∧ ∀ l, ∃ ts, targets s' l = targets s l ++ ts)
    ∨ (HasRoom s ∧ NamesKnown s ∧ ¬ FieldsFit s ∧ s'.labels = []) := by
  intro s
  have hi := inv_reach base mem h
  have hi' : Inv base s' := by
    have := inv_op hi .finalize
    rw [show (Op.finalize.run (reach base mem h)) = .panic e s' from hfin] at this
    exact this
  rcases finalize_failed hi hfin with ⟨h1, h2⟩ | ⟨h1, h2, h3, h4⟩
  · refine .inl ⟨h1, h2.keep.len, fun l a hl => ?_, fun l => ?_⟩
    · rw [hasAddress_iff hi' hA.pos, hasAddress_iff hi hA.pos, h2.keep.loc l hl]
    · obtain ⟨ts, h, -⟩ := h2.targets l
      exact ⟨ts, h⟩
  · exact .inr ⟨h1, h2, h3, h4.labels⟩

/-- The labels survive if no call before has panicked. -/
theorem C67_kept_partial (hA : Alloc base) (hr : NoRaw h) (hs : runOps h (JitMemory.new base mem) = .ok () s)
    (hfin : JitMemory.finalize s = .panic e s') :
    s'.labels.length = s.labels.length ∧ (∀ l a, ¬ Pending s l → (HasAddress s' l a ↔ HasAddress s l a))
    ∧ ∀ l, ∃ ts, targets s' l = targets s l ++ ts := by
  have hl := (live_runOps (inv_new base mem) hr hs (live_new base mem)).1
  have es : reach base mem h = s := runCaught_of_ok hs
  rw [← es] at hfin
  rcases C67_labels hA hfin with ⟨-, h⟩ | ⟨-, -, h, -⟩
  · rw [← es]; exact h
  · exact absurd (fun l t ht _ => hl l t (es ▸ ht)) h

/-- After a jump that did not fit on its page, `finalize` panics too and all labels are lost. -/
theorem C67_labels_lost (base : Nat) (mem : Nat → Monoasm.Byte) (bs : List Monoasm.Byte) (hb : bs.length + 3 = PAGE_SIZE) :
    (reach base mem [.new .label, .emit bs, .bind_label 0, .inst (.Jmp (.rel 0))]).labels.length = 1
    ∧ (reach base mem [.new .label, .emit bs, .bind_label 0, .inst (.Jmp (.rel 0)), .finalize]).labels = [] := by
  obtain ⟨⟨s', h, hl⟩, -, -, h1, -⟩ := torn base mem bs hb
  have e : reach base mem [.new .label, .emit bs, .bind_label 0, .inst (.Jmp (.rel 0)), .finalize]
      = (JitMemory.finalize (reach base mem (tornHist bs))).state := by
    simp only [reach, tornHist, runCaught_cons]; rfl
  exact ⟨h1, by rw [e, h]; exact hl⟩

/-- And an instruction that was emitted, without a panic, after that jump does not stay as it is: the byte of
    the `ret` is C3 before, and FB after the `finalize`. -/
theorem C67_torn (base : Nat) (mem : Nat → Monoasm.Byte) (bs : List Monoasm.Byte) (hb : bs.length + 3 = PAGE_SIZE) :
    let H : List Op := [.new .label, .emit bs, .bind_label 0, .inst (.Jmp (.rel 0))]
    (∃ s1, Runs .Ret (reach base mem H) s1) ∧ Spec.place base mem (H ++ [.inst .Ret]) 4 = base + (bs.length + 1)
    ∧ (reach base mem (H ++ [.inst .Ret])).mem (base + (bs.length + 1)) = 0xc3
    ∧ (reach base mem (H ++ [.inst .Ret, .finalize])).mem (base + (bs.length + 1)) = 0xfb := by
  intro H
  obtain ⟨-, ⟨s1, h1⟩, h2, -, h3, s', h4, h5⟩ := torn base mem bs hb
  refine ⟨⟨s1, _, rfl, h1⟩, h2, h3, ?_⟩
  have e : reach base mem (H ++ [.inst .Ret, .finalize]) = (JitMemory.finalize (reach base mem (tornHist bs ++ [.inst .Ret]))).state := by
    simp only [reach, H, tornHist, runCaught_append, runCaught_cons]; rfl
  rw [e, h4]; exact h5

/-- Without any panic before: the first `finalize` has no room for an object, and panics; the labels are
    still there. The second one loses them. -/
theorem C67_second_loses (base : Nat) (mem : Nat → Monoasm.Byte) (bs : List Monoasm.Byte) (hb : bs.length = PAGE_SIZE) :
    let H : List Op := [.new .label, .emit bs, .bind_label 0, .new (.abs_address 0)]
    (∃ s, runOps H (JitMemory.new base mem) = .ok () s)
    ∧ (reach base mem (H ++ [.finalize])).labels.length = 2 ∧ (reach base mem (H ++ [.finalize, .finalize])).labels = [] := by
  intro H
  obtain ⟨h1, ⟨e, s', h2, h3⟩, e', s'', h4, h5⟩ := full base mem bs hb
  have e1 : reach base mem (H ++ [.finalize]) = (JitMemory.finalize (reach base mem H)).state := by
    simp only [reach, runCaught_append, runCaught_cons]; rfl
  have e2 : reach base mem (H ++ [.finalize, .finalize]) = (JitMemory.finalize (reach base mem (H ++ [.finalize]))).state := by
    simp only [reach, runCaught_append, runCaught_cons]; rfl
  exact ⟨h1, by rw [e1]; exact (congrArg (fun r => r.state.labels.length) h2).trans h3,
    by rw [e2]; exact (congrArg (fun r => r.state.labels) h4).trans h5⟩

/-- Objects that were not placed are forgotten: the constant of label 1 is never placed, and the load that
    refers to it never filled, although the next `finalize` returns. -/
theorem C67_objects_lost :
    let H : List Op := [.new (.abs_address 99), .new (.const_i64 7),
      .inst (.Movq (.reg (.reg 0)) (.ind ⟨.reg 16, .none, .label 1⟩)), .finalize]
    ∃ s', JitMemory.finalize (reach 0x10000000 (fun _ => 0xcc) H) = .ok () s' ∧ NoAddress s' 1 .noPositionBinding
    ∧ bytes s'.mem 0x10000000 7 = [0x48, 0x8b, 0x05, 0, 0, 0, 0] := by
  intro H
  obtain ⟨s', hs⟩ := Res.isOk_iff.1 (show (JitMemory.finalize (reach 0x10000000 (fun _ => 0xcc) H)).isOk = true by decide +kernel)
  have e : s' = (JitMemory.finalize (reach 0x10000000 (fun _ => 0xcc) H)).state := by rw [hs]; rfl
  refine ⟨s', hs, noAddress_unbound ?_ ?_, ?_⟩ <;> rw [e] <;> decide +kernel

/-- A program, and a `finalize` that panics because an object refers to a label that does not exist. -/
example :
    let H : List Op := [.new .label, .inst (.Jmp (.rel 0)), .inst .Leave, .bind_label 0, .inst .Ret, .finalize]
    let h' : List Op := [.new (.abs_address 99), .inst .Ret, .finalize]
    NoRaw H ∧ H[1]? = some (.inst (.Jmp (.rel 0))) ∧ (∃ s1, Runs (.Jmp (.rel 0)) (reach 0x10000000 (fun _ => 0xcc) (H.take 1)) s1)
    ∧ (∀ l, targets (reach 0x10000000 (fun _ => 0xcc) H) l = [])
    ∧ SparesRange (Spec.place 0x10000000 (fun _ => 0xcc) H 1)
      (Spec.place 0x10000000 (fun _ => 0xcc) H 2 - Spec.place 0x10000000 (fun _ => 0xcc) H 1) (reach 0x10000000 (fun _ => 0xcc) H) h'
    ∧ (JitMemory.finalize (reach 0x10000000 (fun _ => 0xcc) (H ++ h'.take 2))).isOk = false
    ∧ bytes (reach 0x10000000 (fun _ => 0xcc) (H ++ h')).mem 0x10000000 5 = [0xe9, 1, 0, 0, 0] := by
  intro H h'
  refine ⟨by simp [NoRaw, H], rfl, ?_, fun l => ?_, ⟨?_, ?_, ?_, trivial⟩, by decide +kernel, by decide +kernel⟩
  · obtain ⟨s', hs⟩ := Res.isOk_iff.1 (show ((Op.inst (.Jmp (.rel 0))).run (reach 0x10000000 (fun _ => 0xcc) (H.take 1))).isOk = true by decide +kernel)
    exact ⟨s', _, rfl, hs⟩
  · have e : (reach 0x10000000 (fun _ => 0xcc) H).labels = [⟨some (0, 6), []⟩] := by decide +kernel
    match l with
    | 0 => rw [targets, e]; rfl
    | l + 1 => rw [targets, e]; rfl
  all_goals intro x _ _ h; exact h

end Monoasm
