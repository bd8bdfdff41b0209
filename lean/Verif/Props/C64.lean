import Verif.Proofs.Rewrite
import Verif.Spec.Rewrite
import Verif.Props.C62
/-
  C64: patching is rewriting. To patch a jump of a program that is complete has exactly the effect (on
  code, labels, cursors, pending fields, everything) of having written the jump with the new label in the
  first place.
-/

namespace Monoasm
open Spec X86 JitMemory

variable {base : Nat} {mem : Nat → Monoasm.Byte} {H K : List Op} {n m : Nat} {i j : Inst Val Nat} {p q d e l : DestLabel} {E : Effect}

/-- A program with one jump changed to another label is laid out in the same way: cursors, positions of
    labels, registered objects, and all bytes except the four of the distance. -/
theorem C64_layout (hA : Alloc base) (h : CanGo base mem H n i d) :
    let H' := H.set n (.inst (retarget d i))
    let s := reach base mem H
    let s' := reach base mem H'
    s'.page = s.page ∧ s'.pages = s.pages ∧ (∀ l a, HasAddress s' l a ↔ HasAddress s l a)
    ∧ ∀ a, ¬ (Spec.place base mem H n + 1 ≤ a ∧ a < Spec.place base mem H n + 5) → s'.mem a = s.mem a := by
  obtain ⟨l, hl⟩ := h.jump
  obtain ⟨-, -, hS⟩ := rewritten hA h.complete h.stmt hl h.placed h.exists_
  refine ⟨hS.page.symm, hS.pages.symm, fun l a => ?_, fun a ha => (hS.mem a (by omega)).symm⟩
  rw [hasAddress_iff (inv_reach base mem _) hA.pos, hasAddress_iff (inv_reach base mem _) hA.pos, hS.locOf]

/-- It is complete, too. -/
theorem C64_complete (hA : Alloc base) (h : CanGo base mem H n i d) : trial base mem (H.set n (.inst (retarget d i))) = true := by
  obtain ⟨l, hl⟩ := h.jump
  exact (rewritten hA h.complete h.stmt hl h.placed h.exists_).1

/-- Patching gives the state of the program with the jump changed. -/
theorem C64_address (hA : Alloc base) (h : CanGo base mem H n i d) :
    apply_jmp_patch_address (Spec.place base mem H n) d (reach base mem H) = .ok () (reach base mem (H.set n (.inst (retarget d i)))) := by
  obtain ⟨l, hl⟩ := h.jump
  exact patch_rewrites hA h.complete h.stmt hl h.placed h.exists_

/-- The same for a patch by a label at the jump. -/
theorem C64 (hA : Alloc base) (h : CanGo base mem H n i d) (hp : HasAddress (reach base mem H) p (Spec.place base mem H n)) :
    apply_jmp_patch p d (reach base mem H) = .ok () (reach base mem (H.set n (.inst (retarget d i)))) := by
  rw [patch_label_run hp]
  exact C64_address hA h

/-- A history with patches ends in the same state as the program that it amounts to. -/
theorem C64_history (hA : Alloc base) (h : Amounts base mem K H) : reach base mem K = reach base mem H := by
  induction h with
  | start => rfl
  | call _ ih => rw [reach, reach, runCaught_append, runCaught_append]; exact congrArg _ ih
  | patch _ hc hp ih =>
    rw [reach, runCaught_append, show runCaught _ _ = reach base mem _ from ih]
    show ((Op.apply_jmp_patch _ _).run _).state = _
    rw [show (Op.apply_jmp_patch _ _).run _ = _ from C64 hA hc hp]
    rfl
  | patchAddress _ hc ih =>
    rw [reach, runCaught_append, show runCaught _ _ = reach base mem _ from ih]
    show ((Op.apply_jmp_patch_address _ _).run _).state = _
    rw [show (Op.apply_jmp_patch_address _ _).run _ = _ from C64_address hA hc]
    rfl

/-- So the processor, on the memory that the history with patches leaves, executes that program. -/
theorem C64_flow (hA : Alloc base) (h : Amounts base mem K H) (ht : trial base mem H = true) {δ δ' : Data} {k}
    (hr : Flow base mem H encoded E k n δ m δ') :
    (Loaded base mem K δ ↔ Loaded base mem H δ) ∧ Steps E k ⟨placeW base mem H n, δ⟩ ⟨placeW base mem H m, δ'⟩ :=
  ⟨by simp only [Loaded, C64_history hA h], C62_flow hA ht hA hr⟩

/-- A history without patches amounts to itself. -/
theorem amounts_self (H : List Op) : Amounts base mem H H := by
  have : ∀ K L : List Op, Amounts base mem K K → Amounts base mem (K ++ L) (K ++ L) := by
    intro K L
    induction L generalizing K with
    | nil => intro h; rwa [List.append_nil]
    | cons op ops ih => intro h; rw [List.append_cons]; exact ih _ h.call
  exact this [] H .start

/-- The rewritten program can be patched in turn. -/
theorem C64_again (hA : Alloc base) (h : CanGo base mem H n i d) (he : CanGo base mem H m j e) :
    CanGo base mem (H.set n (.inst (retarget d i))) m (if n = m then retarget d j else j) e := by
  obtain ⟨l, hl⟩ := h.jump
  obtain ⟨l', hl'⟩ := he.jump
  have hn := (List.getElem?_eq_some_iff.1 h.stmt).1
  refine ⟨C64_complete hA h, ?_, ?_, ?_, ?_⟩
  · by_cases e : n = m
    · subst e
      have := h.stmt.symm.trans he.stmt
      cases this
      rw [if_pos rfl, List.getElem?_set_self hn]
    · rw [if_neg e, List.getElem?_set_ne e]; exact he.stmt
  · split
    · exact ⟨d, (retarget_patchable hl').1⟩
    · exact ⟨l', hl'⟩
  · have hne : ∀ op : Op, op ∈ H → (∀ i, op ≠ .inst (.Jmp i)) → (∀ i, op ≠ .inst (.Call i)) → op ∈ H.set n (.inst (retarget d i)) := by
      intro op hop h1 h2
      obtain ⟨k, hk⟩ := List.mem_iff_getElem?.1 hop
      refine List.mem_iff_getElem?.2 ⟨k, ?_⟩
      rw [List.getElem?_set_ne]
      · exact hk
      · rintro rfl
        have := h.stmt.symm.trans hk
        cases this
        rcases hl with rfl | rfl
        · exact h1 _ rfl
        · exact h2 _ rfl
    exact he.placed.imp (fun x => hne _ x (by simp) (by simp)) fun x => hne _ x (by simp) (by simp)
  · rcases Nat.lt_or_ge n m with hlt | hge
    · have t := tried h.complete
      have t' := tried (C64_complete hA h)
      have hs : (H.take m)[n]? = some (.inst i) := by rw [List.getElem?_take_of_lt hlt]; exact h.stmt
      rw [len_reach (keepsLabels_take t'.noPanic m), List.take_set, set_split hs]
      have := he.exists_
      rw [len_reach (keepsLabels_take t.noPanic m), split_at hs] at this
      simpa only [countNew_append, countNew, List.append_assoc, List.singleton_append] using this
    · rw [List.take_set_of_le hge]
      exact he.exists_

/-- Patching a jump twice: the last patch counts. -/
theorem C64_last (hA : Alloc base) (h : CanGo base mem H n i d) (he : CanGo base mem H n i e) (hp : HasAddress (reach base mem H) p (Spec.place base mem H n)) :
    reach base mem (H ++ [.apply_jmp_patch p d, .apply_jmp_patch p e]) = reach base mem (H ++ [.apply_jmp_patch p e]) := by
  have h1 := C64_again hA h he
  rw [if_pos rfl] at h1
  have hH : Amounts base mem H H := amounts_self H
  have epl : Spec.place base mem (H.set n (.inst (retarget d i))) n = Spec.place base mem H n := by
    rw [Spec.place, Spec.place, List.take_set_of_le (Nat.le_refl n)]
  have a1 := Amounts.patch (.patch hH h hp) h1 (p := p) (by rw [epl]; exact ((C64_layout hA h).2.2.1 p _).2 hp)
  have a2 := Amounts.patch hH he hp
  rw [List.append_assoc] at a1
  refine (C64_history hA a1).trans (Eq.trans ?_ (C64_history hA a2).symm)
  rw [List.set_set]
  obtain ⟨l, hl⟩ := h.jump
  rcases hl with rfl | rfl <;> rfl

/-- Patching a jump back to its own label undoes the patch. -/
theorem C64_undo (hA : Alloc base) (h : CanGo base mem H n i d) (hl : Patchable i l) (hp : HasAddress (reach base mem H) p (Spec.place base mem H n)) :
    reach base mem (H ++ [.apply_jmp_patch p d, .apply_jmp_patch p l]) = reach base mem H := by
  have t := tried h.complete
  have he : CanGo base mem H n i l := by
    refine ⟨h.complete, h.stmt, ⟨l, hl⟩, t.placed i (List.mem_of_getElem? h.stmt) (by rcases hl with rfl | rfl <;> rfl) l (patchable_mentions hl), ?_⟩
    obtain ⟨s1, h1, -⟩ := t.at h.stmt
    exact patchable_label hl h1
  rw [C64_last hA h he hp, C64_history hA (.patch (amounts_self H) he hp)]
  congr 1
  have : retarget l i = i := by rcases hl with rfl | rfl <;> rfl
  rw [this]
  obtain ⟨hn, e⟩ := List.getElem?_eq_some_iff.1 h.stmt
  rw [← e]
  exact List.set_getElem_self _

/-- Patches of different jumps can be made in any order. -/
theorem C64_order (hA : Alloc base) (h : CanGo base mem H n i d) (he : CanGo base mem H m j e) (hnm : n ≠ m)
    (hp : HasAddress (reach base mem H) p (Spec.place base mem H n)) (hq : HasAddress (reach base mem H) q (Spec.place base mem H m)) :
    reach base mem (H ++ [.apply_jmp_patch p d, .apply_jmp_patch q e]) = reach base mem (H ++ [.apply_jmp_patch q e, .apply_jmp_patch p d]) := by
  have h1 := C64_again hA h he
  have h2 := C64_again hA he h
  rw [if_neg hnm] at h1
  rw [if_neg (Ne.symm hnm)] at h2
  obtain ⟨l, hl⟩ := h.jump
  obtain ⟨l', hl'⟩ := he.jump
  have a1 := Amounts.patch (.patch (amounts_self H) h hp) h1 (p := q)
    (by rw [rewritten_place h.complete h.stmt hl h.exists_]; exact ((C64_layout hA h).2.2.1 q _).2 hq)
  have a2 := Amounts.patch (.patch (amounts_self H) he hq) h2 (p := p)
    (by rw [rewritten_place he.complete he.stmt hl' he.exists_]; exact ((C64_layout hA he).2.2.1 p _).2 hp)
  rw [List.append_assoc] at a1 a2
  refine (C64_history hA a1).trans (Eq.trans ?_ (C64_history hA a2).symm)
  rw [List.set_comm _ _ hnm]

/-- A program with two jumps and three places. -/
def C64_program : List Op :=
  [.new .label, .new .label, .new .label, .new .label, .inst (.Label 0), .inst (.Jmp (.rel 1)), .inst (.Label 3), .inst (.Call (.rel 2)), .inst .Ret,
   .inst (.Label 1), .inst .Ret, .inst (.Label 2), .inst .Leave, .inst .Ret, .finalize]

theorem C64_program_can : CanGo 0x10000000 (fun _ => 0xcc) C64_program 5 (.Jmp (.rel 1)) 2
    ∧ CanGo 0x10000000 (fun _ => 0xcc) C64_program 7 (.Call (.rel 2)) 1 := by
  refine ⟨⟨by decide +kernel, rfl, ⟨1, .inl rfl⟩, .inr (by simp [C64_program]), by decide +kernel⟩, ⟨by decide +kernel, rfl, ⟨2, .inr rfl⟩, .inr (by simp [C64_program]), by decide +kernel⟩⟩

theorem C64_program_labels : HasAddress (reach 0x10000000 (fun _ => 0xcc) C64_program) 0 (Spec.place 0x10000000 (fun _ => 0xcc) C64_program 5)
    ∧ HasAddress (reach 0x10000000 (fun _ => 0xcc) C64_program) 3 (Spec.place 0x10000000 (fun _ => 0xcc) C64_program 7) := by
  have a0 : Alloc 0x10000000 := ⟨by rw [PAGE_SIZE_eq]; decide, by decide, by rw [PAGE_SIZE_eq]; decide⟩
  rw [hasAddress_iff (inv_reach _ _ _) a0.pos, hasAddress_iff (inv_reach _ _ _) a0.pos]
  exact ⟨⟨0, 0, by decide +kernel, by decide +kernel⟩, ⟨0, 5, by decide +kernel, by decide +kernel⟩⟩

/-- Its jump patched to label 2, its call to label 1. -/
example : reach 0x10000000 (fun _ => 0xcc) (C64_program ++ [.apply_jmp_patch 0 2, .apply_jmp_patch 3 1])
      = reach 0x10000000 (fun _ => 0xcc) ((C64_program.set 5 (.inst (.Jmp (.rel 2)))).set 7 (.inst (.Call (.rel 1)))) := by
  have a0 : Alloc 0x10000000 := ⟨by rw [PAGE_SIZE_eq]; decide, by decide, by rw [PAGE_SIZE_eq]; decide⟩
  obtain ⟨h, he⟩ := C64_program_can
  obtain ⟨hp, hq⟩ := C64_program_labels
  have h1 := C64_again a0 h he
  have a1 := Amounts.patch (.patch (amounts_self _) h hp) h1 (p := 3)
    (by rw [rewritten_place h.complete h.stmt (l := 1) (.inl rfl) h.exists_]; exact ((C64_layout a0 h).2.2.1 3 _).2 hq)
  rw [List.append_assoc] at a1
  exact C64_history a0 a1

/-- The code really changes. -/
example : (reach 0x10000000 (fun _ => 0xcc) C64_program).mem 0x10000001 = 6
    ∧ (reach 0x10000000 (fun _ => 0xcc) (C64_program ++ [.apply_jmp_patch 0 2])).mem 0x10000001 = 7 := by
  decide +kernel

end Monoasm
