import Verif.Proofs.Objects
import Verif.Props.C11
/-
  C19: absolute address constants.

  As C16: the slot is created by `abs_address(x)` after history `h1`, and the next `finalize` comes
  after the further calls `h2`. The label `x` may be any label, bound before or after, by the
  program or by the same `finalize` (a constant or a data object).
-/

namespace Monoasm
open Spec

variable {base : Nat} {mem : Nat → Byte} {h1 h2 h3 h4 : List Op} {l x : DestLabel} {s1 s' s'' : JitMemory} {a : Nat}

/-- The slot is eight bytes on the page selected at creation, at an 8-byte aligned address; if `x` is
    bound when `finalize` returns, the slot holds the address of `x`. -/
theorem C19_bound (ha : Alloc base) (hr : NoRaw (h1 ++ .new (.abs_address x) :: h2))
    (hn : NoFinalize h2)
    (hl : JitMemory.abs_address x (reach base mem h1) = .ok l s1)
    (hfin : JitMemory.finalize (reach base mem (h1 ++ .new (.abs_address x) :: h2)) = .ok () s')
    (hx : HasAddress s' x a) :
    Holds base s' l (reach base mem h1).page 8 (littleEndian 8 a) := by
  have hi := hinv_reach (base := base) (mem := mem) hr
  have f := finalize_hinv hi hfin
  have hw : Waits (reach base mem (h1 ++ .new (.abs_address x) :: h2)) (reach base mem h1).page (.absAddress x) l :=
    waits_reach_const (c := .abs_address x) hl rfl hn
  obtain ⟨pos, e1, _, e3, e4, _, e6⟩ := f.placed _ _ l ((waits_iff hi).1 hw)
  obtain ⟨q, c, hq, rfl⟩ := (hasAddress_iff f.inv ha.pos).1 hx
  have hlen : ∀ n, (littleEndian 8 n).length = 8 := fun n => by simp [littleEndian]
  refine ⟨pos, hasAddress_of_loc f.inv ha.pos e1, dvd_addr ha (align_dvd (.absAddress x)) e4, ?_, ?_⟩
  · rw [hlen]; exact Nat.le_trans e3 (f.inv.counter _)
  · rw [hlen]
    rcases e6 x rfl with ⟨h0, _⟩ | ⟨q', c', hq', hb, _⟩
    · rw [h0] at hq; cases hq
    · rw [hq] at hq'; cases hq'
      have hlt := addr_lt f.inv ha hq
      rw [f.inv.contents, f.inv.contents, BitVec.toNat_ofNat] at hb
      rw [show addrOf base (reach base mem h1).page pos = base + PAGE_SIZE * (reach base mem h1).page + pos from rfl, hb]
      congr 1
      exact Nat.mod_eq_of_lt hlt

/-- If `x` is still unbound, the slot (aligned in the same way) is pending. -/
theorem C19_pending (ha : Alloc base) (hr : NoRaw (h1 ++ .new (.abs_address x) :: h2))
    (hn : NoFinalize h2)
    (hl : JitMemory.abs_address x (reach base mem h1) = .ok l s1)
    (hfin : JitMemory.finalize (reach base mem (h1 ++ .new (.abs_address x) :: h2)) = .ok () s')
    (hx : JitMemory.get_label_pos x s' = .panic .noPositionBinding s') :
    ∃ pos, HasAddress s' l (addrOf base (reach base mem h1).page pos) ∧ 8 ∣ addrOf base (reach base mem h1).page pos
      ∧ pos + 8 ≤ PAGE_SIZE ∧ TargetType.abs (reach base mem h1).page pos ∈ targets s' x := by
  have hi := hinv_reach (base := base) (mem := mem) hr
  have f := finalize_hinv hi hfin
  have hw : Waits (reach base mem (h1 ++ .new (.abs_address x) :: h2)) (reach base mem h1).page (.absAddress x) l :=
    waits_reach_const (c := .abs_address x) hl rfl hn
  obtain ⟨pos, e1, _, e3, e4, _, e6⟩ := f.placed _ _ l ((waits_iff hi).1 hw)
  refine ⟨pos, hasAddress_of_loc f.inv ha.pos e1, dvd_addr ha (align_dvd (.absAddress x)) e4,
    Nat.le_trans e3 (f.inv.counter _), ?_⟩
  rcases e6 x rfl with ⟨_, h0⟩ | ⟨q', c', hq', _⟩
  · exact h0
  · rw [unbound_pos hx] at hq'; cases hq'

/-- And the first later `finalize` at which `x` is bound stores its address; the slot keeps it in all
    later histories `h4` that do not themselves overwrite it. -/
theorem C19_late {b : Nat} (ha : Alloc base) (hr : NoRaw (h1 ++ .new (.abs_address x) :: h2 ++ .finalize :: h3))
    (hf : KeepsLabels (JitMemory.new base mem) (h1 ++ .new (.abs_address x) :: h2 ++ .finalize :: h3))
    (hn : NoFinalize h2) (hl : JitMemory.abs_address x (reach base mem h1) = .ok l s1)
    (hfin : JitMemory.finalize (reach base mem (h1 ++ .new (.abs_address x) :: h2)) = .ok () s')
    (hx : JitMemory.get_label_pos x s' = .panic .noPositionBinding s') (hu : UnboundAtFinalize x s' h3)
    (hfin2 : JitMemory.finalize (reach base mem (h1 ++ .new (.abs_address x) :: h2 ++ .finalize :: h3)) = .ok () s'')
    (hb : HasAddress s'' x b) (hadr : HasAddress s' l a)
    (hk : SparesRange a 8 s'' h4) :
    bytes (reach base mem (h1 ++ .new (.abs_address x) :: h2 ++ .finalize :: h3 ++ .finalize :: h4)).mem a 8
      = littleEndian 8 b := by
  have e0 : h1 ++ .new (.abs_address x) :: h2 ++ .finalize :: h3
      = (h1 ++ .new (.abs_address x) :: h2 ++ [.finalize]) ++ h3 := by simp
  have er : reach base mem (h1 ++ .new (.abs_address x) :: h2 ++ [.finalize]) = s' := by
    rw [reach, runCaught_append]
    show (JitMemory.finalize (reach base mem (h1 ++ .new (.abs_address x) :: h2))).state = s'
    rw [hfin]; rfl
  obtain ⟨pos, p1, p2, p3, p4⟩ := C19_pending ha (noRaw_append.1 hr).1 hn hl hfin hx
  have ea : addrOf base (reach base mem h1).page pos = a := by
    exact (Res.ok.inj (p1.1.symm.trans hadr.1)).1
  rw [e0] at hr hf hfin2 ⊢
  rw [← er] at p4 hu
  generalize h1 ++ .new (.abs_address x) :: h2 ++ [.finalize] = H at *
  have hi2 := (finalize_hinv (hinv_reach (base := base) (mem := mem) hr) hfin2).inv
  have hsp : SparesField (.abs (reach base mem h1).page pos) s'' h4 := by
    intro pos' hc
    have c1 := hc.2.1
    have c2 := hc.2.2
    simp only [TargetType.pos, TargetType.size] at c1 c2
    refine spares_range hi2 ?_ ?_ hk
    · rw [← ea]; simp only [TargetType.page, addrOf]; omega
    · rw [← ea]; simp only [TargetType.page, addrOf]; omega
  have := C11_filled (h1 := H) (h2 := h3) (h3 := h4) ha hr hf p4 hu hfin2 hb hsp
  rw [← ea]
  exact this

/-- Addresses of a code label, of a constant placed by the same `finalize`, and of a data object. -/
example :
    let h1 : List Op := [.new .label, .new (.const_i64 9), .new (.data_i32 5), .inst .Ret, .new (.abs_address 0), .select_page 1,
      .new (.abs_address 1)]
    let h2 : List Op := [.bind_label 0, .inst .Ret]
    let h : List Op := h1 ++ .new (.abs_address 2) :: h2
    let s' := (JitMemory.finalize (reach 0x10000000 (fun _ => 0xcc) h)).state
    NoRaw h ∧ KeepsLabels (JitMemory.new 0x10000000 (fun _ => 0xcc)) h
    ∧ (JitMemory.finalize (reach 0x10000000 (fun _ => 0xcc) h)).isOk = true
    ∧ s'.locOf 3 = some (0, 24) ∧ bytes s'.mem 0x10000018 8 = littleEndian 8 0x20000000
    ∧ s'.locOf 4 = some (1, 8) ∧ bytes s'.mem 0x20000008 8 = littleEndian 8 0x10000010
    ∧ s'.locOf 5 = some (1, 16) ∧ bytes s'.mem 0x20000010 8 = littleEndian 8 0x30000000 := by
  exact ⟨by decide +kernel, by decide +kernel, by decide +kernel, by decide +kernel, by decide +kernel,
    by decide +kernel, by decide +kernel, by decide +kernel, by decide +kernel⟩

/-- A label bound only before a later `finalize`. -/
example :
    let h : List Op := [.new .label, .inst .Ret, .new (.abs_address 0), .finalize, .inst .Ret, .finalize, .bind_label 0]
    let s' := (JitMemory.finalize (reach 0x10000000 (fun _ => 0xcc) h)).state
    KeepsLabels (JitMemory.new 0x10000000 (fun _ => 0xcc)) h
    ∧ (JitMemory.finalize (reach 0x10000000 (fun _ => 0xcc) h)).isOk = true
    ∧ bytes (reach 0x10000000 (fun _ => 0xcc) h).mem 0x10000008 8 = List.replicate 8 0
    ∧ bytes s'.mem 0x10000008 8 = littleEndian 8 0x10000011 := by
  exact ⟨by decide +kernel, by decide +kernel, by decide +kernel, by decide +kernel⟩

end Monoasm
