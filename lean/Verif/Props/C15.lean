import Verif.Proofs.Patch
import Verif.Proofs.Failed
/-
  C15: patches touch four bytes and survive `finalize`.
-/

namespace Monoasm
open Spec

variable {base : Nat} {mem : Nat → Byte} {h : List Op} {p d : DestLabel} {pa da : Nat}

/-- In every state, a call of `apply_jmp_patch_address` changes nothing but the four bytes after the
    opcode, even when it panics. -/
theorem C15_address_four (s : JitMemory) : ∃ m, (JitMemory.apply_jmp_patch_address pa d s).state = { s with mem := m }
    ∧ ∀ a, ¬ (pa + 1 ≤ a ∧ a < pa + 5) → m a = s.mem a :=
  patch_address_state pa d s

/-- The same for `apply_jmp_patch`. -/
theorem C15_four {s : JitMemory} (hp : HasAddress s p pa) :
    ∃ m, (JitMemory.apply_jmp_patch p d s).state = { s with mem := m }
    ∧ ∀ a, ¬ (pa + 1 ≤ a ∧ a < pa + 5) → m a = s.mem a := by
  rw [patch_label_run hp]; exact patch_address_state pa d s

/-- With an unbound or unknown patch point `apply_jmp_patch` changes nothing. -/
theorem C15_unbound {s : JitMemory} {e : Panic} (hp : NoAddress s p e) :
    JitMemory.apply_jmp_patch p d s = .panic e s :=
  panic_bind hp.1

/-- Both write the four bytes of the (32-bit) offset. -/
theorem C15_written {s : JitMemory} (hp : HasAddress s p pa) (hd : HasAddress s d da) :
    ∃ m, JitMemory.apply_jmp_patch p d s = .ok () { s with mem := m }
    ∧ bytes m (pa + 1) 4 = littleEndian 4 ((BitVec.ofNat 64 da - BitVec.ofNat 64 pa - 5).setWidth 32).toNat := by
  rw [patch_label_run hp]
  obtain ⟨m, h1, _, h3⟩ := patch_run (y := pa) hd
  exact ⟨m, h1, by rw [h3, le32_eq]⟩

/-- A field of the code is resolved by a `finalize` after history `h0`; it is the operand of the
    instruction at label `p` (the recorded position is one byte after the position of `p`). After
    any further calls `h1` the instruction is patched. Then in every later history `h2` that does
    not itself overwrite the field, with any number of `finalize`s, the four bytes stay as the patch
    left them. (`h1` and `h2` are any calls; all kinds of panics are caught.) -/
theorem C15_survives {h0 h1 h2 : List Op} {s' : JitMemory} {l : DestLabel} {q : Page} {off : BitVec 8} {pos a : Nat}
    (ha : Alloc base) (hr : NoRaw h0)
    (ht : TargetType.rel q off (pos + 1) ∈ targets (reach base mem h0) l)
    (hfin : JitMemory.finalize (reach base mem h0) = .ok () s') (hl : HasAddress s' l a)
    (hk1 : SparesField (.rel q off (pos + 1)) s' h1)
    (hk2 : SparesField (.rel q off (pos + 1)) (reach base mem (h0 ++ .finalize :: h1 ++ [.apply_jmp_patch p d])) h2) :
    bytes (reach base mem (h0 ++ .finalize :: h1 ++ .apply_jmp_patch p d :: h2)).mem (addrOf base q (pos + 1)) 4
      = bytes (reach base mem (h0 ++ .finalize :: h1 ++ [.apply_jmp_patch p d])).mem (addrOf base q (pos + 1)) 4 := by
  have e0 : reach base mem (h0 ++ .finalize :: h1) = runCaught h1 s' := by
    rw [reach, runCaught_append, runCaught_cons]
    show runCaught h1 (JitMemory.finalize (reach base mem h0)).state = _
    rw [hfin]; rfl
  have e1 : h0 ++ .finalize :: h1 ++ .apply_jmp_patch p d :: h2 = (h0 ++ .finalize :: h1 ++ [.apply_jmp_patch p d]) ++ h2 := by simp
  have hi0 := hinv_reach (base := base) (mem := mem) hr
  have F := finalize_hinv hi0 hfin
  have hb : s'.locOf l ≠ none := by
    obtain ⟨q, c, hl, _⟩ := (hasAddress_iff F.inv ha.pos).1 hl
    rw [hl]; simp
  have hiP := inv_reach base mem (h0 ++ .finalize :: h1 ++ [.apply_jmp_patch p d])
  have step : ∀ x, Covers (.rel q off (pos + 1)) q x →
      (runCaught h2 (reach base mem (h0 ++ .finalize :: h1 ++ [.apply_jmp_patch p d]))).mem (addrOf base q x)
        = (reach base mem (h0 ++ .finalize :: h1 ++ [.apply_jmp_patch p d])).mem (addrOf base q x) := by
    intro x hx
    have s2 := (sealed_caught F.inv (sealed_filled hi0 hfin hb ht hx) (hk1 x hx)).1
    rw [← e0] at s2
    have s3 : Sealed (reach base mem (h0 ++ .finalize :: h1 ++ [.apply_jmp_patch p d])) q x := by
      obtain ⟨m, em, _⟩ := pokes_state (op := .apply_jmp_patch p d) trivial (reach base mem (h0 ++ .finalize :: h1))
      have : reach base mem (h0 ++ .finalize :: h1 ++ [.apply_jmp_patch p d]) = { reach base mem (h0 ++ .finalize :: h1) with mem := m } := by
        rw [← em, reach, runCaught_append]; rfl
      rw [this]
      exact ⟨s2.1, s2.2⟩
    have := (sealed_caught hiP s3 (hk2 x hx)).2
    simpa only [byteAt, hiP.contents, (inv_caught hiP h2).contents, addrOf] using this
  rw [e1]
  show bytes (runCaught ((h0 ++ .finalize :: h1 ++ [.apply_jmp_patch p d]) ++ h2) (JitMemory.new base mem)).mem _ _ = _
  rw [runCaught_append]
  refine mem_bytes_congr fun i hi => ?_
  have := step (pos + 1 + i) ⟨rfl, Nat.le_add_right _ _, Nat.add_lt_add_left hi _⟩
  simpa only [addrOf, Nat.add_assoc, reach] using this

/-- A patch made before the field is resolved does not survive: the `finalize` that resolves the
    field overwrites it. -/
theorem C15_early_undone :
    let h : List Op := [.new .label, .new .label, .bind_label 0, .inst (.Jmp (.rel 1)), .bind_label 1, .inst .Ret]
    let s := reach 0x10000000 (fun _ => 0xcc) h
    let s1 := (JitMemory.apply_jmp_patch 0 0 s).state
    bytes s1.mem 0x10000000 5 = [0xe9, 0xfb, 0xff, 0xff, 0xff]
    ∧ bytes (JitMemory.finalize s1).state.mem 0x10000000 5 = [0xe9, 0, 0, 0, 0] := by
  exact ⟨by decide +kernel, by decide +kernel⟩

/-- A resolved jump is patched to another page; code is added and finalized twice afterwards. -/
def C15_h0 : List Op :=
  [.new .label, .new .label, .new .label, .bind_label 0, .inst (.Jmp (.rel 1)), .bind_label 1, .inst .Ret,
    .select_page 1, .inst .Leave, .bind_label 2]
def C15_h1 : List Op := [.inst .Ret]
def C15_h2 : List Op := [.inst (.Jmp (.rel 1)), .finalize, .select_page 0, .inst .Ret, .finalize]

example :
    let all := C15_h0 ++ .finalize :: C15_h1 ++ .apply_jmp_patch 0 2 :: C15_h2
    NoRaw C15_h0
    ∧ targets (reach 0x10000000 (fun _ => 0xcc) C15_h0) 1 = [.rel 0 4 (0 + 1)]
    ∧ bytes (reach 0x10000000 (fun _ => 0xcc) (C15_h0 ++ .finalize :: C15_h1)).mem 0x10000000 5 = [0xe9, 0, 0, 0, 0]
    ∧ bytes (reach 0x10000000 (fun _ => 0xcc) all).mem 0x10000000 5 = [0xe9, 0xfc, 0xff, 0xff, 0x0f] := by
  exact ⟨by decide +kernel, by decide +kernel, by decide +kernel, by decide +kernel⟩

example (s : JitMemory) : SparesField (.rel 0 4 1) s C15_h1 ∧ SparesField (.rel 0 4 1) s C15_h2 :=
  ⟨fun _ _ => ⟨id, trivial⟩, fun _ _ => ⟨id, id, id, id, id, trivial⟩⟩

end Monoasm
